import Mathlib.Data.String.Basic
import Mathlib.Data.List.Sort

/-!
# Model of `ArrayCatalog` and of the columns of catalogs as objects (nbodykit/source/catalog/array.py 7-86, nbodykit/base/catalog.py 17-95, 222-246, 345-425, 563-665,
705-725, 975-1011, 1078-1098)

The constructor runs on all ranks together; afterwards a catalog is followed on one rank. Arrays and dictionaries of the caller live in a memory and are held by reference: a
column made from a numpy array (`da.from_array`) refers to it, and is evaluated when it is computed. Rows have any type, a data type is a name that includes the shape of a row.
Chunks are not modelled.
-/
namespace NBK.ArrObj

inductive Err where
  | valueError | keyError | indexError | assertionError
  deriving DecidableEq, Repr

/-- A numpy array. -/
structure Arr (ρ : Type) where
  dtype : String
  rows : List ρ

/-- The arrays and dictionaries of the caller on one rank. -/
structure Mem (ρ : Type) where
  arrs : Nat → Arr ρ
  dicts : Nat → List (String × Nat)

/-- What is passed to `ArrayCatalog`: a dictionary, a structured array (its fields; a `Table` is turned into one), an array without fields. -/
inductive Data where
  | dict (d : Nat)
  | fields (l : List (String × Nat))
  | plain
  deriving DecidableEq

/-- `self._source`. -/
inductive Src where
  | dict (d : Nat)
  | fields (l : List (String × Nat))
  deriving DecidableEq

variable {ρ : Type}

def Src.entries (m : Mem ρ) : Src → List (String × Nat)
  | .dict d => m.dicts d
  | .fields l => l

/-- `source[key]`. -/
def Src.get (m : Mem ρ) (s : Src) (k : String) : Option Nat := ((s.entries m).find? fun p => p.1 = k).map Prod.snd

/-! ## The constructor (array.py 28-68) -/

/-- The keys in order (array.py 44-48). -/
def Src.keys (m : Mem ρ) (s : Src) : List String := ((s.entries m).map Prod.fst).insertionSort (· ≤ ·)

/-- The data type of the catalog on a rank (array.py 49-50). -/
def Src.dtype (m : Mem ρ) (s : Src) : List (String × String) :=
  (s.keys m).map fun k => (k, ((s.get m k).elim "" fun i => (m.arrs i).dtype))

def Src.lenOf (m : Mem ρ) (s : Src) (k : String) : Nat := (s.get m k).elim 0 fun i => (m.arrs i).rows.length

/-- Before the first communication (array.py 31-42). -/
def source : Data → Except Err Src
  | .dict d => .ok (.dict d)
  | .fields l => .ok (.fields l)
  | .plain => .error .valueError

/-- The sizes, after it (array.py 58-63). -/
def sizeOf (m : Mem ρ) (s : Src) : Except Err Nat :=
  match s.keys m with
  | [] => .error .indexError
  | k :: l => if l.any fun j => s.lenOf m j ≠ s.lenOf m k then .error .valueError else .ok (s.lenOf m k)

/-- A catalog on one rank. -/
structure Obj where
  src : Src
  names : List String
  size : Nat
  csize : Nat
  attrs : List (String × Nat)

/-- What happens on a rank: the object, an exception, or waiting for a message that never comes. -/
inductive Outcome where
  | done (o : Obj)
  | raised (e : Err)
  | stuck

/-- What the rank does by itself; `root` compares the data types of all ranks (array.py 53-56). -/
def alone (ms : List (Mem ρ × Src)) (r : Nat) (m : Mem ρ) (s : Src) : Except Err Nat :=
  if r = 0 ∧ ms.any fun p => p.2.dtype p.1 ≠ s.dtype m then .error .valueError else sizeOf m s

/-- The part after the gathering of the data types: the final `allreduce` of the sizes completes only if no rank has raised. -/
def afterGather (ms : List (Mem ρ × Src)) (kwargs : List (String × Nat)) : List Outcome :=
  let res := ms.mapIdx fun r p => (alone ms r p.1 p.2, p.1, p.2)
  if res.all fun p => p.1.toBool then
    let sizes := res.map fun p => p.1.toOption.getD 0
    res.map fun p => .done ⟨p.2.2, p.2.2.keys p.2.1, p.1.toOption.getD 0, sizes.sum, kwargs⟩
  else res.map fun p =>
    match p.1 with
    | .error e => .raised e
    | .ok _ => .stuck

/-- `__init__` on all ranks (array.py 28-68). If a rank raises before the gathering, the others never finish. -/
def new (args : List (Mem ρ × Data)) (kwargs : List (String × Nat)) : List Outcome :=
  match args.mapM fun p => (source p.2).toOption.map fun s => (p.1, s) with
  | some ms => afterGather ms kwargs
  | none => args.map fun p =>
    match source p.2 with
    | .error e => .raised e
    | .ok _ => .stuck

/-! ## The catalog on a rank -/

/-- A dask array: one made from a numpy array, a constant one, rows picked from another. -/
inductive Content (ρ : Type) where
  | ref (i : Nat)
  | const (l : List ρ)
  | pick (c : Content ρ) (idx : List Nat)

/-- `compute`. -/
def Content.eval (m : Mem ρ) : Content ρ → List ρ
  | .ref i => (m.arrs i).rows
  | .const l => l
  | .pick c idx => idx.filterMap fun i => (c.eval m)[i]?

/-- A `ColumnAccessor` (catalog.py 36-47): the array, whether it is a default column, its `attrs`. -/
structure Acc (ρ : Type) where
  content : Content ρ
  isDefault : Bool
  attrs : String → Option Nat

/-- The state: the memory, the catalog, its columns that were set, the accessors that the caller holds. `one` is the value of the default columns. -/
structure State (ρ : Type) where
  mem : Mem ρ
  obj : Obj
  over : String → Option (Content ρ)
  overNames : List String
  accs : List (Acc ρ)
  one : ρ

def defaults : List String := ["Selection", "Value", "Weight"]

/-- `hardcolumns` and `columns` (array.py 69-75, catalog.py 452-470). -/
def State.columns (st : State ρ) : List String := ((st.obj.names ++ st.overNames ++ defaults).dedup).insertionSort (· ≤ ·)

/-- `self[col]` (catalog.py 345-372, array.py 77-86): a new accessor, without attributes. -/
def State.read (st : State ρ) (c : String) : Except Err (Acc ρ) :=
  match st.over c with
  | some v => .ok ⟨v, false, fun _ => none⟩
  | none =>
    if c ∈ st.obj.names then
      match st.obj.src.get st.mem c with
      | some i => .ok ⟨.ref i, false, fun _ => none⟩
      | none => .error .keyError
    else if c ∈ defaults then .ok ⟨.const (List.replicate st.obj.size st.one), true, fun _ => none⟩
    else .error .keyError

/-- A value that is assigned to a column: an array of the caller or an accessor. `make_column` returns an accessor as it is (catalog.py 222-232), because it is a dask array. -/
inductive Given where
  | arr (i : Nat)
  | acc (a : Nat)

def Given.content (st : State ρ) : Given → Option (Content ρ)
  | .arr i => some (.ref i)
  | .acc a => (st.accs[a]?).map Acc.content

/-- What the caller can do. -/
inductive Op (ρ : Type) where
  | writeArr (i : Nat) (rows : List ρ)
  | putDict (d : Nat) (key : String) (i : Nat)
  | delDict (d : Nat) (key : String)
  | setCol (c : String) (v : Given)
  | delCol (c : String)
  | access (c : String)
  | index (a : Nat) (idx : List Nat)
  | accAttr (a : Nat) (key : String) (v : Nat)

def Mem.putDict (m : Mem ρ) (d : Nat) (l : List (String × Nat)) : Mem ρ := { m with dicts := fun x => if x = d then l else m.dicts x }

/-- One operation, and its exception. In-place writing keeps the length; accessors that do not exist are a KeyError of the caller. -/
def State.step (st : State ρ) : Op ρ → State ρ × Option Err
  | .writeArr i rows =>
    if rows.length = (st.mem.arrs i).rows.length then
      ({ st with mem := { st.mem with arrs := fun x => if x = i then ⟨(st.mem.arrs i).dtype, rows⟩ else st.mem.arrs x } }, none)
    else (st, some .valueError)
  | .putDict d k i => ({ st with mem := st.mem.putDict d (((st.mem.dicts d).filter fun p => p.1 ≠ k) ++ [(k, i)]) }, none)
  | .delDict d k =>
    if (st.mem.dicts d).any fun p => p.1 = k then ({ st with mem := st.mem.putDict d ((st.mem.dicts d).filter fun p => p.1 ≠ k) }, none) else (st, some .keyError)
  | .setCol c v =>
    match v.content st with
    | none => (st, some .keyError)
    | some x =>
      if (x.eval st.mem).length = st.obj.size then
        ({ st with
            over := fun y => if y = c then some x else st.over y
            overNames := if c ∈ st.overNames then st.overNames else st.overNames ++ [c] }, none)
      else (st, some .assertionError)
  | .delCol c =>
    if c ∈ st.obj.names then (st, some .valueError)
    else if (st.over c).isSome then
      ({ st with
          over := fun y => if y = c then none else st.over y
          overNames := st.overNames.filter fun y => y ≠ c }, none)
    else (st, some .valueError)
  | .access c =>
    match st.read c with
    | .ok a => ({ st with accs := st.accs ++ [a] }, none)
    | .error e => (st, some e)
  | .index a idx =>
    match st.accs[a]? with
    | none => (st, some .keyError)
    | some x =>
      if idx.all fun i => i < (x.content.eval st.mem).length then ({ st with accs := st.accs ++ [⟨.pick x.content idx, false, x.attrs⟩] }, none)
      else (st, some .indexError)
  | .accAttr a k v =>
    match st.accs[a]? with
    | none => (st, some .keyError)
    | some x => ({ st with accs := st.accs.set a { x with attrs := fun y => if y = k then some v else x.attrs y } }, none)

def State.run (st : State ρ) : List (Op ρ) → State ρ
  | [] => st
  | o :: l => (st.step o).1.run l

/-- The catalog of a rank after the constructor. -/
def State.start (m : Mem ρ) (o : Obj) (one : ρ) : State ρ := ⟨m, o, fun _ => none, [], [], one⟩

/-- `read(columns)` (catalog.py 705-725). -/
def State.readAll (st : State ρ) (cols : List String) : Except Err (List (Acc ρ)) :=
  if cols.any fun c => c ∉ st.columns then .error .valueError else cols.mapM st.read

/-- What `save` writes for the columns that are not defaults (catalog.py 594-656): the rows, and the attributes of the accessor. -/
def State.saved (st : State ρ) (cols : List String) : Except Err (List (String × List ρ × (String → Option Nat))) :=
  (cols.mapM fun c => (st.read c).map fun a => (c, a)).map fun l =>
    (l.filter fun p => !p.2.isDefault).map fun p => (p.1, p.2.content.eval st.mem, p.2.attrs)

/-- A persisted catalog (catalog.py 1078-1098): an `ArrayCatalog` of the computed columns, with a copy of `attrs`. -/
structure Persisted (ρ : Type) where
  names : List String
  cols : String → Option (List ρ)
  size : Nat
  attrs : List (String × Nat)

def State.persist (st : State ρ) (columns : Option (List String)) : Except Err (Persisted ρ) :=
  let cols := columns.getD st.columns
  (cols.mapM fun c => (st.read c).map fun a => (c, a.content.eval st.mem)).bind fun l =>
    let keys := (l.map Prod.fst).dedup.insertionSort (· ≤ ·)
    match keys with
    | [] => .error .indexError
    | k :: _ =>
      let get := fun c => ((l.reverse.find? fun p => p.1 = c).map Prod.snd)
      if l.any fun p => p.2.length ≠ ((get k).getD []).length then .error .valueError
      else .ok ⟨keys, get, ((get k).getD []).length, st.obj.attrs⟩

end NBK.ArrObj
