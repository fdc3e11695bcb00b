import Verif.Options.Model
import Verif.TaskMgr.Model
/-!
# Model of the settings of a process: `use_mpi`, `use_distributed`, communicators, options, logging, `TaskManager` objects
(nbodykit/__init__.py 1-300, batch.py 84-170, 348-370)

Client code is a small imperative language with a big-step semantics, as in `Verif.Options`, over all the settings at once. Collective calls are taken to
be met by the other ranks.
-/
namespace NBK.Setup

/-- Communicators: the predefined ones, and others by number. -/
inductive Comm where
  | null
  | self
  | world
  | other (id : Nat)
  deriving DecidableEq, Repr

inductive Sched where
  | synchronous
  | distributed
  deriving DecidableEq, Repr

inductive Level where
  | info
  | debug
  | warning
  deriving DecidableEq, Repr

/-- A `TaskManager`: the base communicator with its size and rank, the arguments, `_valid_worker` and `comm`. -/
structure Tm where
  base : Comm
  size : Nat
  rank : Nat
  cpus : Nat
  useAll : Bool
  valid : Option Bool
  comm : Option Comm
  deriving DecidableEq, Repr

/-- The settings. `table` has size and rank of the communicators made so far, `dims` those of `COMM_WORLD`; `freed` the numbers of those freed; `saved` the
copies kept by `set_options` objects. -/
structure St where
  stack : List Comm
  opts : Options.St Nat
  saved : List (String → Option Nat)
  sched : Sched
  pickles : Bool
  handlers : Nat
  ours : Bool
  level : Level
  dims : Nat × Nat
  table : List (Nat × Nat)
  freed : List Nat
  tms : List Tm

/-- Size and rank of a communicator that can be used. -/
def dimsOf (s : St) : Comm → Option (Nat × Nat)
  | .null => none
  | .self => some (1, 0)
  | .world => some s.dims
  | .other i => if i ∈ s.freed then none else s.table[i]?

/-- Attributes and collective calls work. -/
def alive (s : St) (c : Comm) : Bool := (dimsOf s c).isSome

/-- `_unpickle(name)` (__init__.py 27-28). -/
def unpickle (name : String) : Option Comm :=
  if name = "COMM_NULL" then some .null
  else if name = "COMM_SELF" then some .self
  else if name = "COMM_WORLD" then some .world
  else none

/-- `_comm_pickle` (__init__.py 30-37): the argument of `_unpickle`, or TypeError. A freed communicator is `COMM_NULL`. -/
def commPickle (s : St) (c : Comm) : Option String :=
  if c = .null ∨ (∃ i ∈ s.freed, c = .other i) then some "COMM_NULL"
  else if c = .self then some "COMM_SELF"
  else if c = .world then some "COMM_WORLD"
  else none

/-- `CurrentMPIComm._stack[-1] = comm`. -/
def setTop (s : St) (c : Comm) : St := { s with stack := s.stack.dropLast ++ [c] }

def chunk : String := "dask_chunk_size"

/-- `set_options(dask_chunk_size=n)`; the option exists. -/
def setChunk (s : St) (n : Nat) : St := { s with opts := Options.setOptions s.opts [(chunk, n)], saved := s.saved ++ [s.opts.opts] }

/-- `use_mpi` (__init__.py 93-105). -/
def useMpi (s : St) (c : Option Comm) : St := setChunk (setTop { s with sched := .synchronous } (c.getD .world)) (1024 * 100)

/-- `_setup_for_distributed` (__init__.py 39-50). -/
def setupDistributed (s : St) : St := setChunk { setTop s .self with pickles := true } (1024 * 1024 * 2)

/-- `use_distributed` (__init__.py 52-91) in the calling process; without a client `get_client` raises after the scheduler is set. What it does to the
scheduler's process is in `Verif.Setup.Cluster`. -/
def useDistributed (s : St) (client : Bool) : St × Bool :=
  let s := { s with sched := .distributed }
  if client then (setupDistributed s, true) else (s, false)

/-- `setup_logging` (__init__.py 259-300); an unknown level is a KeyError at the last line. -/
def setupLogging (s : St) (l : Option Level) : St × Bool :=
  let s := if s.ours then s else { s with ours := true, handlers := s.handlers + 1 }
  match l with
  | none => (s, false)
  | some l => ({ s with level := l }, true)

/-- `CurrentMPIComm.push` (155-161): the communicator is appended before it is used. -/
def push (s : St) (c : Comm) : St × Bool := ({ s with stack := s.stack ++ [c] }, alive s c)

/-- `CurrentMPIComm.pop` (163-173). -/
def pop (s : St) : St × Bool := match s.stack.getLast? with
  | none => (s, false)
  | some c =>
    if ¬ alive s c then (s, false)
    else
      let t := { s with stack := s.stack.dropLast }
      match t.stack.getLast? with
      | none => (t, false)
      | some d => (t, alive s d)

/-- `CurrentMPIComm.set` (182-191). -/
def set (s : St) (c : Comm) : St × Bool := match s.stack.getLast? with
  | none => (s, false)
  | some d => if ¬ alive s d then (s, false) else (setTop s c, alive s c)

/-- `TaskManager(cpus, comm, use_all_cpus)` (batch.py 84-110), with `comm=None` the current communicator. -/
def newTm (s : St) (cpus : Nat) (useAll : Bool) (c : Option Comm) : St × Bool :=
  match c.or s.stack.getLast? with
  | none => (s, false)
  | some b => match dimsOf s b with
    | none => (s, false)
    | some (size, rank) => if size = 1 then (s, false) else ({ s with tms := s.tms ++ [⟨b, size, rank, cpus, useAll, none, none⟩] }, true)

/-- `TaskManager.__enter__` (batch.py 108-151): the new communicator is made and pushed. -/
def enterTm (s : St) (i : Nat) : St × Bool := match s.tms[i]? with
  | none => (s, false)
  | some t => match TaskMgr.enter t.size t.cpus t.useAll t.rank with
    | .error _ => (s, false)
    | .ok ctx =>
      if ¬ alive s t.base then ({ s with tms := s.tms.set i { t with valid := some ctx.valid } }, false)
      else
        let c := Comm.other s.table.length
        ({ s with table := s.table ++ [(ctx.comm.length, ctx.comm.idxOf t.rank)], tms := s.tms.set i { t with valid := some ctx.valid, comm := some c },
                  stack := s.stack ++ [c] }, true)

/-- `comm.Free()`. -/
def free (s : St) (c : Comm) : St × Bool := match c with
  | .other i => if alive s c then ({ s with freed := i :: s.freed }, true) else (s, false)
  | _ => (s, false)

/-- `TaskManager.__exit__` without an exception (batch.py 360-370). -/
def exitTm (s : St) (i : Nat) : St × Bool := match s.tms[i]? with
  | none => (s, false)
  | some t =>
    if ¬ alive s t.base then (s, false)
    else match pop s with
      | (s, false) => (s, false)
      | (s, true) => match t.comm with
        | none => (s, true)
        | some c => free s c

/-- `is_worker` (batch.py 161-170); `none` is the ValueError. -/
def isWorker (s : St) (i : Nat) : Option Bool := (s.tms[i]?).bind fun t => t.valid

/-- How a statement ends; `exited` is `os._exit(1)`. -/
inductive Outcome where
  | normal
  | error
  | exited
  deriving DecidableEq, Repr

/-- Client code. -/
inductive Prog where
  | skip
  | raise
  | useMpi (c : Option Comm)
  | useDistributed (client : Bool)
  | logging (l : Option Level)
  /-- `set_options(**kw)` -/
  | set (kw : List (String × Nat))
  /-- `with set_options(**kw): body` -/
  | withOpts (kw : List (String × Nat)) (body : Prog)
  /-- `with obj: body` for an earlier `obj = set_options(...)` -/
  | withObj (i : Nat) (body : Prog)
  | push (c : Comm)
  | pop
  | setComm (c : Comm)
  /-- `with CurrentMPIComm.enter(c): body` -/
  | enter (c : Comm) (body : Prog)
  | newTm (cpus : Nat) (useAll : Bool) (c : Option Comm)
  /-- `with tm: body` -/
  | withTm (i : Nat) (body : Prog)
  /-- `tm.is_worker()` -/
  | isWorker (i : Nat)
  | seq (p q : Prog)
  | ite (c : St → Bool) (p q : Prog)
  | loop (c : St → Bool) (p : Prog)
  | tryExcept (p q : Prog)

/-- A simple statement. -/
def act (s : St) : Prog → Option (St × Bool)
  | .skip => some (s, true)
  | .raise => some (s, false)
  | .useMpi c => some (Setup.useMpi s c, true)
  | .useDistributed c => some (Setup.useDistributed s c)
  | .logging l => some (setupLogging s l)
  | .set kw => some (if Options.unknown s.opts kw then (s, false) else ({ s with opts := Options.setOptions s.opts kw, saved := s.saved ++ [s.opts.opts] }, true))
  | .push c => some (Setup.push s c)
  | .pop => some (Setup.pop s)
  | .setComm c => some (Setup.set s c)
  | .newTm n a c => some (Setup.newTm s n a c)
  | .isWorker i => some (s, (Setup.isWorker s i).isSome)
  | _ => none

def outcome (b : Bool) : Outcome := if b then .normal else .error

/-- Big-step semantics. -/
inductive Exec : Prog → St → Outcome → St → Prop where
  | act (p s s' b) (h : act s p = some (s', b)) : Exec p s (outcome b) s'
  /-- `__exit__` is called however the body ends, unless the process is gone -/
  | withOpts (s kw body o s') (h : Options.unknown s.opts kw = false)
      (hb : Exec body { s with opts := Options.setOptions s.opts kw, saved := s.saved ++ [s.opts.opts] } o s') :
      Exec (.withOpts kw body) s o { s' with opts := Options.exitOptions s.opts.opts s'.opts }
  | withBad (s kw body) (h : Options.unknown s.opts kw = true) : Exec (.withOpts kw body) s .error s
  | withObj (s i body o s' old) (h : s.saved[i]? = some old) (hb : Exec body s o s') :
      Exec (.withObj i body) s o { s' with opts := Options.exitOptions old s'.opts }
  | enterBad (s c body s') (h : push s c = (s', false)) : Exec (.enter c body) s .error s'
  | enter (s c body s1 s2 s' b) (h : push s c = (s1, true)) (hb : Exec body s1 .normal s2) (hp : pop s2 = (s', b)) :
      Exec (.enter c body) s (outcome b) s'
  | enterRaise (s c body s1 o s') (h : push s c = (s1, true)) (hb : Exec body s1 o s') (ho : o ≠ .normal) : Exec (.enter c body) s o s'
  | tmBad (s i body s') (h : enterTm s i = (s', false)) : Exec (.withTm i body) s .error s'
  | tm (s i body s1 s2 s' b) (h : enterTm s i = (s1, true)) (hb : Exec body s1 .normal s2) (hp : exitTm s2 i = (s', b)) :
      Exec (.withTm i body) s (outcome b) s'
  /-- an exception in the body ends the process (batch.py 352-358) -/
  | tmRaise (s i body s1 o s') (h : enterTm s i = (s1, true)) (hb : Exec body s1 o s') (ho : o ≠ .normal) : Exec (.withTm i body) s .exited s'
  | seq (p q s s' o s'') (hp : Exec p s .normal s') (hq : Exec q s' o s'') : Exec (.seq p q) s o s''
  | seqRaise (p q s s' o) (ho : o ≠ .normal) (hp : Exec p s o s') : Exec (.seq p q) s o s'
  | iteT (c p q s o s') (h : c s = true) (hp : Exec p s o s') : Exec (.ite c p q) s o s'
  | iteF (c p q s o s') (h : c s = false) (hq : Exec q s o s') : Exec (.ite c p q) s o s'
  | loopEnd (c p s) (h : c s = false) : Exec (.loop c p) s .normal s
  | loopStep (c p s s' o s'') (h : c s = true) (hp : Exec p s .normal s') (hl : Exec (.loop c p) s' o s'') : Exec (.loop c p) s o s''
  | loopRaise (c p s s' o) (h : c s = true) (ho : o ≠ .normal) (hp : Exec p s o s') : Exec (.loop c p) s o s'
  | tryOk (p q s s') (hp : Exec p s .normal s') : Exec (.tryExcept p q) s .normal s'
  | tryBad (p q s s' o s'') (hp : Exec p s .error s') (hq : Exec q s' o s'') : Exec (.tryExcept p q) s o s''
  /-- the end of the process is not an exception -/
  | tryGone (p q s s') (hp : Exec p s .exited s') : Exec (.tryExcept p q) s .exited s'

/-- The settings after `import nbodykit` (__init__.py 14-25, 107-111, 211-212, 259). -/
def initial (dims : Nat × Nat) (table : List (Nat × Nat)) : St :=
  { stack := [.world]
    opts := ⟨fun k => if k = Options.gcs then some 100000000 else if k = chunk then some 100000
      else if k = "paint_chunk_size" then some (1024 * 1024 * 4) else none, 100000000⟩
    saved := [], sched := .synchronous, pickles := false, handlers := 0, ours := false, level := .warning, dims := dims, table := table, freed := [], tms := [] }

end NBK.Setup
