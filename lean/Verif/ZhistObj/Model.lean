import Verif.Zhist.Model

/-!
# Model of programs with `RedshiftHistogram` objects (nbodykit/algorithms/zhist.py)

Objects are made, run again, copied, pickled, saved and loaded, between changes of the catalogs, of their `attrs` and of the arrays of edges.  The histogram itself is that of `Zhist`.  Arrays of edges
and the dictionaries `attrs` have addresses, since several objects can share them; the other results are arrays that each run makes anew, and are kept as values.  A cosmology is known by its
number; `comoving_distance`, pi and the width of Scott's rule are parameters.  Logging is left out.
-/
namespace NBK.ZhistObj

inductive Err where
  | valueError
  | keyError
  | nameError
  | typeError
  | attributeError
  | ioError
  | indexError
  deriving DecidableEq, Repr

/-- A sequence of edges: the array at an address, or a list of Python. -/
inductive Seq where
  | arr (a : Nat)
  | list (l : List ℚ)
  deriving DecidableEq, Repr

/-- The contents of a sequence, as it is written to a file (an array and a list are told apart by the JSON encoder). -/
inductive SeqV where
  | arr (l : List ℚ)
  | list (l : List ℚ)
  deriving DecidableEq, Repr

/-- `attrs` (zhist.py 70-75); `cosmo` stands for `dict(cosmo)`. -/
structure Attrs where
  edges : Seq
  fsky : ℚ
  redshift : String
  weight : Option String
  cosmo : Nat
  deriving DecidableEq, Repr

/-- A catalog: the columns, by ranks. -/
structure Cat where
  comm : Nat
  cols : String → Option (List (List ℚ))

/-- The results in the state of an object: `bin_centers`, `dV`, `nbar`. -/
structure Res where
  centers : List ℚ
  dV : List ℚ
  nbar : List (Option ℚ)
  deriving DecidableEq, Repr

/-- An object. `src` has `source` and `cosmo`, which a loaded object lacks; `comm` is lacking after unpickling. -/
structure Obj where
  src : Option (Nat × Nat)
  comm : Option Nat
  attrs : Nat
  binEdges : Seq
  res : Res
  deriving DecidableEq, Repr

/-- A file (zhist.py 161-185). -/
structure Saved where
  binEdges : SeqV
  res : Res
  edges : SeqV
  fsky : ℚ
  redshift : String
  weight : Option String
  cosmo : Nat
  deriving DecidableEq, Repr

structure World where
  arrs : List (List ℚ)
  dicts : List Attrs
  cats : List Cat
  objs : List Obj
  files : String → Option Saved

structure Env where
  pi : ℚ
  dist : Nat → ℚ → ℚ
  /-- the width of Scott's rule (zhist.py 237-246) -/
  width : List (List ℚ) → ℚ

/-- The numbers of a sequence. -/
def World.nums (w : World) : Seq → List ℚ
  | .arr a => (w.arrs[a]?).getD []
  | .list l => l

def World.value (w : World) : Seq → SeqV
  | .arr a => .arr ((w.arrs[a]?).getD [])
  | .list l => .list l

/-- A sequence that a program can have: a list, or an array that was made. -/
def World.has (w : World) : Seq → Bool
  | .arr a => decide (a < w.arrs.length)
  | .list _ => true

/-- Redshifts with weights, by ranks; 1 without a column of weights (zhist.py 109-118). -/
def pairs (z : List (List ℚ)) (wt : Option (List (List ℚ))) : List (List (ℚ × ℚ)) :=
  match wt with
  | none => z.map fun l => l.map fun x => (x, 1)
  | some v => List.zipWith List.zip z v

/-- The columns named in `attrs`, read from the source now; a column that is not there is a `KeyError` (base/catalog.py 383). -/
def columns (c : Cat) (redshift : String) (weight : Option String) : Except Err (List (List (ℚ × ℚ))) := do
  let z ← (c.cols redshift).elim (.error .keyError) .ok
  match weight with
  | none => pure (pairs z none)
  | some n =>
    let v ← (c.cols n).elim (.error .keyError) .ok
    pure (pairs z (some v))

/-- `0.5*(edges[:-1] + edges[1:])` (zhist.py 137). Lists of Python are joined by `+`, and a list times 0.5 is a `TypeError`. -/
def centersOf (w : World) : Seq → Except Err (List ℚ)
  | .arr a => let l := (w.arrs[a]?).getD []; .ok (List.zipWith (fun x y => (1 / 2) * (x + y)) l.dropLast l.tail)
  | .list _ => .error .typeError

/-- What a run gives: nothing but an error, the new `bin_edges` and then an error, or all (zhist.py 104-139: `bin_edges` is stored before `bin_centers` is computed). -/
inductive Ran where
  | fails (e : Err)
  | half (b : Seq) (e : Err)
  | done (b : Seq) (r : Res)

/-- `run` (zhist.py 104-139). -/
def runWith (e : Env) (w : World) (src : Option (Nat × Nat)) (a : Attrs) : Ran :=
  match src with
  | none => .fails .attributeError
  | some (s, cosmo) =>
    match w.cats[s]? with
    | none => .fails .indexError
    | some c =>
      match columns c a.redshift a.weight with
      | .error er => .fails er
      | .ok D =>
        let l := w.nums a.edges
        let dV := Zhist.volumes e.pi a.fsky (e.dist cosmo) l
        let nb := Zhist.nbar e.pi a.fsky (e.dist cosmo) l D
        match centersOf w a.edges with
        | .error er => .half a.edges er
        | .ok cs => .done a.edges ⟨cs, dV, nb⟩

/-- The `bins` argument: nothing, an integer, an array or a list. -/
inductive Bins where
  | none
  | int (n : Nat)
  | seq (s : Seq)

structure Args where
  source : Nat
  fsky : ℚ
  cosmo : Nat
  bins : Bins
  redshift : String
  weight : Option String

def liftErr : Zhist.Err → Err
  | .nameError => .nameError
  | .valueError => .valueError

/-- The edges of `__init__` (zhist.py 51-65): the sequence itself, or an array made here. -/
def edgesOf (e : Env) (w : World) (z : List (List ℚ)) : Bins → Except Err (World × Seq)
  | .seq s => if w.has s then .ok (w, s) else .error .indexError
  | .int n => match Zhist.initEdges 0 (.int n) (z.map fun l => l.map fun x => (x, 1)) with
    | .error er => .error (liftErr er)
    | .ok l => .ok ({ w with arrs := w.arrs ++ [l] }, .arr w.arrs.length)
  | .none => match Zhist.initEdges (e.width z) .none (z.map fun l => l.map fun x => (x, 1)) with
    | .error er => .error (liftErr er)
    | .ok l => .ok ({ w with arrs := w.arrs ++ [l] }, .arr w.arrs.length)

/-- `RedshiftHistogram(...)` (zhist.py 42-78). -/
def make (e : Env) (w : World) (a : Args) : Except Err World :=
  match w.cats[a.source]? with
  | none => .error .indexError
  | some c =>
    match c.cols a.redshift with
    | none => .error .valueError
    | some z =>
      if a.weight.elim false (fun n => (c.cols n).isNone) then .error .valueError
      else match edgesOf e w z a.bins with
        | .error er => .error er
        | .ok (w, s) =>
          let d : Attrs := ⟨s, a.fsky, a.redshift, a.weight, a.cosmo⟩
          match runWith e w (some (a.source, a.cosmo)) d with
          | .fails er => .error er
          | .half _ er => .error er
          | .done b r => .ok { w with dicts := w.dicts ++ [d], objs := w.objs ++ [⟨some (a.source, a.cosmo), some c.comm, w.dicts.length, b, r⟩] }

/-- Setting a key of `attrs`, to something that there is. -/
inductive Key where
  | edges (s : Seq) | fsky (q : ℚ) | redshift (s : String) | weight (s : Option String)

def Attrs.set (a : Attrs) : Key → Attrs
  | .edges s => { a with edges := s }
  | .fsky q => { a with fsky := q }
  | .redshift s => { a with redshift := s }
  | .weight s => { a with weight := s }

def Key.ok (w : World) : Key → Bool
  | .edges s => w.has s
  | _ => true

inductive Op where
  | make (a : Args)
  | run (o : Nat)
  | setAttr (o : Nat) (k : Key)
  /-- `arr[i] = v` -/
  | poke (a i : Nat) (v : ℚ)
  | setCol (c : Nat) (name : String) (v : List (List ℚ))
  | copy (o : Nat)
  | pickle (o : Nat)
  | save (o : Nat) (path : String)
  | load (path : String) (comm : Nat)

inductive Out where
  | unit
  | error (e : Err)
  deriving DecidableEq, Repr

/-- A sequence with these contents: an array is made anew. -/
def alloc (arrs : List (List ℚ)) : SeqV → List (List ℚ) × Seq
  | .arr l => (arrs ++ [l], .arr arrs.length)
  | .list l => (arrs, .list l)

/-- The state that is written (zhist.py 161-168). -/
def stateOf (w : World) (x : Obj) (d : Attrs) : Saved := ⟨w.value x.binEdges, x.res, w.value d.edges, d.fsky, d.redshift, d.weight, d.cosmo⟩

/-- One operation. `copy.copy` takes over the members of `__getstate__`, with the same `attrs` and arrays; unpickled objects have new ones, in which `bin_edges` is `attrs['edges']` if it was before;
a file keeps the contents only (zhist.py 161-208). -/
def step (e : Env) (w : World) : Op → World × Out
  | .make a => match make e w a with
    | .error er => (w, .error er)
    | .ok w' => (w', .unit)
  | .run o => match w.objs[o]? with
    | none => (w, .error .indexError)
    | some x => match w.dicts[x.attrs]? with
      | none => (w, .error .indexError)
      | some d => match runWith e w x.src d with
        | .fails er => (w, .error er)
        | .half b er => ({ w with objs := w.objs.set o { x with binEdges := b } }, .error er)
        | .done b r => ({ w with objs := w.objs.set o { x with binEdges := b, res := r } }, .unit)
  | .setAttr o k => match w.objs[o]? with
    | none => (w, .error .indexError)
    | some x => match w.dicts[x.attrs]? with
      | none => (w, .error .indexError)
      | some d => if k.ok w then ({ w with dicts := w.dicts.set x.attrs (d.set k) }, .unit) else (w, .error .indexError)
  | .poke a i v => match w.arrs[a]? with
    | none => (w, .error .indexError)
    | some l => if i < l.length then ({ w with arrs := w.arrs.set a (l.set i v) }, .unit) else (w, .error .indexError)
  | .setCol c n v => match w.cats[c]? with
    | none => (w, .error .indexError)
    | some x => ({ w with cats := w.cats.set c { x with cols := fun m => if m = n then some v else x.cols m } }, .unit)
  | .copy o => match w.objs[o]? with
    | none => (w, .error .indexError)
    | some x => ({ w with objs := w.objs ++ [{ x with src := none, comm := none }] }, .unit)
  | .pickle o => match w.objs[o]? with
    | none => (w, .error .indexError)
    | some x => match w.dicts[x.attrs]? with
      | none => (w, .error .indexError)
      | some d =>
        let (arrs, b) := alloc w.arrs (w.value x.binEdges)
        let (arrs, s) := if d.edges = x.binEdges then (arrs, b) else alloc arrs (w.value d.edges)
        ({ w with arrs := arrs, dicts := w.dicts ++ [{ d with edges := s }], objs := w.objs ++ [⟨none, none, w.dicts.length, b, x.res⟩] }, .unit)
  | .save o path => match w.objs[o]? with
    | none => (w, .error .indexError)
    | some x => match x.comm, w.dicts[x.attrs]? with
      | none, _ => (w, .error .attributeError)
      | some _, none => (w, .error .indexError)
      | some _, some d => ({ w with files := fun p => if p = path then some (stateOf w x d) else w.files p }, .unit)
  | .load path comm => match w.files path with
    | none => (w, .error .ioError)
    | some f =>
      let (arrs, b) := alloc w.arrs f.binEdges
      let (arrs, s) := alloc arrs f.edges
      ({ w with arrs := arrs, dicts := w.dicts ++ [⟨s, f.fsky, f.redshift, f.weight, f.cosmo⟩], objs := w.objs ++ [⟨none, some comm, w.dicts.length, b, f.res⟩] }, .unit)

def run (e : Env) (w : World) (l : List Op) : World := l.foldl (fun w o => (step e w o).1) w

/-- What is seen of an object: its edges, results and `attrs`, all as values. -/
def look (w : World) (o : Nat) : Option Saved :=
  match w.objs[o]? with
  | none => none
  | some x => match w.dicts[x.attrs]? with
    | none => none
    | some d => some (stateOf w x d)

end NBK.ZhistObj
