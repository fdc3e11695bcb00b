/-!
# Model of `set_options` and `CurrentMPIComm` (nbodykit/__init__.py 107-191, 215-256)

Client code is a small imperative language; its big-step semantics is a relation, so that non-terminating loops are
covered (nothing is claimed about them). Conditions are arbitrary functions of the state.
-/
namespace NBK.Options

/-- How a statement ends. -/
inductive Outcome where
  | normal
  | keyError      -- raised by `set_options.__init__` (241)
  | userError     -- any exception raised by client code
  deriving DecidableEq, Repr

/-- Module state: `_global_options` (a dict) and `GlobalCache.get().cache.available_bytes`. -/
structure St (V : Type) where
  opts : String → Option V
  cacheBytes : V

/-- The option that controls the cache. -/
def gcs : String := "global_cache_size"

/-- `key not in _global_options` for some keyword (239-241). -/
def unknown {V : Type} (s : St V) (kw : List (String × V)) : Bool := kw.any fun p => (s.opts p.1).isNone

/-- `_global_options.update(kwargs)` (243). -/
def update {V : Type} (o : String → Option V) (kw : List (String × V)) : String → Option V :=
  kw.foldl (fun o p => fun k => if k = p.1 then some p.2 else o k) o

/-- `set_options.__init__` after the check (243-250). A missing `global_cache_size` entry (KeyError at 249) cannot occur,
the key was just updated; the cache then keeps its size. -/
def setOptions {V : Type} (s : St V) (kw : List (String × V)) : St V :=
  let o := update s.opts kw
  if kw.any (fun p => p.1 = gcs) then ⟨o, (o gcs).getD s.cacheBytes⟩ else ⟨o, s.cacheBytes⟩

/-- `set_options.__exit__` (255-264): clear, update with the saved copy, resize the cache. -/
def exitOptions {V : Type} (old : String → Option V) (s : St V) : St V :=
  ⟨old, (old gcs).getD s.cacheBytes⟩

/-- Client programs. -/
inductive Prog (V : Type) where
  | skip
  | raise
  /-- `set_options(**kw)` without `with` -/
  | set (kw : List (String × V))
  /-- `with set_options(**kw): body` -/
  | withOpts (kw : List (String × V)) (body : Prog V)
  | seq (p q : Prog V)
  | ite (c : St V → Bool) (p q : Prog V)
  | loop (c : St V → Bool) (p : Prog V)
  /-- `try: p except: q` -/
  | tryExcept (p q : Prog V)

/-- Big-step semantics. -/
inductive Exec {V : Type} : Prog V → St V → Outcome → St V → Prop where
  | skip (s) : Exec .skip s .normal s
  | raise (s) : Exec .raise s .userError s
  | set (s kw) (h : unknown s kw = false) : Exec (.set kw) s .normal (setOptions s kw)
  | setBad (s kw) (h : unknown s kw = true) : Exec (.set kw) s .keyError s
  /-- the body runs between `__init__` and `__exit__`; `__exit__` returns None, so exceptions propagate -/
  | withOpts (s kw body o s') (h : unknown s kw = false) (hb : Exec body (setOptions s kw) o s') :
      Exec (.withOpts kw body) s o (exitOptions s.opts s')
  | withBad (s kw body) (h : unknown s kw = true) : Exec (.withOpts kw body) s .keyError s
  | seq (p q s s' o s'') (hp : Exec p s .normal s') (hq : Exec q s' o s'') : Exec (.seq p q) s o s''
  | seqRaise (p q s s' o) (ho : o ≠ .normal) (hp : Exec p s o s') : Exec (.seq p q) s o s'
  | iteT (c p q s o s') (h : c s = true) (hp : Exec p s o s') : Exec (.ite c p q) s o s'
  | iteF (c p q s o s') (h : c s = false) (hq : Exec q s o s') : Exec (.ite c p q) s o s'
  | loopEnd (c p s) (h : c s = false) : Exec (.loop c p) s .normal s
  | loopStep (c p s s' o s'') (h : c s = true) (hp : Exec p s .normal s') (hl : Exec (.loop c p) s' o s'') :
      Exec (.loop c p) s o s''
  | loopRaise (c p s s' o) (h : c s = true) (ho : o ≠ .normal) (hp : Exec p s o s') : Exec (.loop c p) s o s'
  | tryOk (p q s s') (hp : Exec p s .normal s') : Exec (.tryExcept p q) s .normal s'
  | tryBad (p q s s' o o' s'') (ho : o ≠ .normal) (hp : Exec p s o s') (hq : Exec q s' o' s'') :
      Exec (.tryExcept p q) s o' s''

/-! ## CurrentMPIComm -/

/-- Client programs using communicators. `κ` is the type of communicators. -/
inductive CProg (κ : Type) where
  | skip
  | raise
  /-- `CurrentMPIComm.push(c)` (155-161) -/
  | push (c : κ)
  /-- `CurrentMPIComm.pop()` (163-173) -/
  | pop
  /-- `CurrentMPIComm.set(c)` (182-191) -/
  | set (c : κ)
  /-- `with CurrentMPIComm.enter(c): body` (127-153) -/
  | enter (c : κ) (body : CProg κ)
  | seq (p q : CProg κ)
  | ite (c : List κ → Bool) (p q : CProg κ)
  | loop (c : List κ → Bool) (p : CProg κ)
  | tryExcept (p q : CProg κ)

/-- Outcome: normal or exception. -/
inductive Res where
  | normal | error
  deriving DecidableEq, Repr

/-- `CurrentMPIComm.get()`: `_stack[-1]` (175-180). -/
def get {κ : Type} (st : List κ) : Option κ := st.getLast?

/-- Big-step semantics on the class attribute `_stack`. `enter` is a generator-based context manager without
try/finally: after `yield`, `cls.pop()` (153) is executed only if the body ended normally. -/
inductive CExec {κ : Type} : CProg κ → List κ → Res → List κ → Prop where
  | skip (st) : CExec .skip st .normal st
  | raise (st) : CExec .raise st .error st
  | push (st c) : CExec (.push c) st .normal (st ++ [c])
  /-- popping down to an empty stack raises IndexError at `cls._stack[-1]` (171) after the pop -/
  | pop (st) (h : 2 ≤ st.length) : CExec .pop st .normal st.dropLast
  | popLast (st) (h : st.length < 2) : CExec .pop st .error st.dropLast
  | set (st c) (h : st ≠ []) : CExec (.set c) st .normal (st.dropLast ++ [c])
  | setBad (c) : CExec (.set c) [] .error []
  | enterOk (st c body st') (hb : CExec body (st ++ [c]) .normal st') (h : 2 ≤ st'.length) :
      CExec (.enter c body) st .normal st'.dropLast
  | enterPopBad (st c body st') (hb : CExec body (st ++ [c]) .normal st') (h : st'.length < 2) :
      CExec (.enter c body) st .error st'.dropLast
  | enterBad (st c body st') (hb : CExec body (st ++ [c]) .error st') : CExec (.enter c body) st .error st'
  | seq (p q st st' o st'') (hp : CExec p st .normal st') (hq : CExec q st' o st'') : CExec (.seq p q) st o st''
  | seqRaise (p q st st') (hp : CExec p st .error st') : CExec (.seq p q) st .error st'
  | iteT (c p q st o st') (h : c st = true) (hp : CExec p st o st') : CExec (.ite c p q) st o st'
  | iteF (c p q st o st') (h : c st = false) (hq : CExec q st o st') : CExec (.ite c p q) st o st'
  | loopEnd (c p st) (h : c st = false) : CExec (.loop c p) st .normal st
  | loopStep (c p st st' o st'') (h : c st = true) (hp : CExec p st .normal st') (hl : CExec (.loop c p) st' o st'') :
      CExec (.loop c p) st o st''
  | loopRaise (c p st st') (h : c st = true) (hp : CExec p st .error st') : CExec (.loop c p) st .error st'
  | tryOk (p q st st') (hp : CExec p st .normal st') : CExec (.tryExcept p q) st .normal st'
  | tryBad (p q st st' o st'') (hp : CExec p st .error st') (hq : CExec q st' o st'') :
      CExec (.tryExcept p q) st o st''

end NBK.Options
