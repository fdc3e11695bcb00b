import Mathlib.Data.List.Sort

/-!
# Model of saving and loading meshes (base/mesh.py `save`, source/mesh/bigfile.py, source/mesh/array.py)

A cell of the mesh is its index in C order.  A field on all ranks is the list of the cells of every rank with their values,
in the order of the local memory.  `ravel` and `unravel` are the collective operations of pmesh: the first gives all values
in C order, cut into pieces with the local sizes; the second takes the arrays of all ranks as one array in C order.
The attributes are in `Verif.Attrs`.
-/
namespace NBK.MeshFile
variable {α : Type}

/-- Python exceptions raised by the modelled code. -/
inductive Err where
  | assertion | valueError | unravel
  deriving DecidableEq, Repr

/-- A field: on every rank, the cells and their values. -/
abbrev Field (α : Type) := List (List (Nat × α))

/-- The cells that every rank holds. -/
abbrev Layout := List (List Nat)

/-- Consecutive pieces of given lengths. -/
def pieces : List Nat → List α → List (List α)
  | [], _ => []
  | n :: ns, l => l.take n :: pieces ns (l.drop n)

/-- `field.ravel(out=data)` (mesh.py 389-390). -/
def ravel (F : Field α) : List (List α) :=
  pieces (F.map List.length) ((F.flatten.insertionSort fun a b => a.1 ≤ b.1).map (·.2))

/-- `ff.create_from_array(dataset, data)` (mesh.py 391): the arrays of all ranks in the order of the ranks. -/
def save (F : Field α) : List α := (ravel F).flatten

/-- `field.unravel(flat)`: `flat` are the arrays of the ranks; too few values are an error. -/
def unravel (D : Layout) (flat : List (List α)) : Except Err (Field α) :=
  D.mapM fun cells => cells.mapM fun i =>
    match flat.flatten[i]? with
    | some v => .ok (i, v)
    | none => .error .unravel

/-- `start = numpy.sum(comm.allgather(size)[:rank])` (bigfile.py 102, 132). -/
def start (D : Layout) (r : Nat) : Nat := ((D.map List.length).take r).sum

/-- `ds[start:end]` on all ranks (bigfile.py 102-104, 132-134). -/
def readParts (D : Layout) (file : List α) : List (List α) :=
  D.mapIdx fun r cells => (file.drop (start D r)).take cells.length

/-- `to_real_field` (bigfile.py 94-106). -/
def loadReal (D : Layout) (file : List α) : Except Err (Field α) := unravel D (readParts D file)

/-- `to_complex_field` (bigfile.py 122-136): first the total size is compared with the size of the dataset. -/
def loadComplex (D : Layout) (file : List α) : Except Err (Field α) :=
  if (D.map List.length).sum = file.length then unravel D (readParts D file) else .error .assertion

/-- The type of a dataset: `dtype.kind == 'c'` and `dtype.itemsize`. -/
structure DType where
  complex : Bool
  itemsize : Nat
  deriving DecidableEq, Repr

/-- The type of the mesh: `f8` or `f4`. -/
inductive Prec where
  | f4 | f8
  deriving DecidableEq, Repr

/-- The dtype of a field of pmesh: complex items are two floats. -/
def fieldDtype (p : Prec) (complex : Bool) : DType :=
  ⟨complex, (match p with | .f4 => 4 | .f8 => 8) * (if complex then 2 else 1)⟩

/-- `isfourier` and `dtype` of a `BigFileMesh` (bigfile.py 52-64). -/
def meshDtype (d : DType) : Bool × Prec :=
  if d.complex then (true, if d.itemsize = 16 then .f8 else .f4)
  else (false, if d.itemsize = 8 then .f8 else .f4)

/-! ### Meshes from arrays -/

/-- The shape of the complex array of a real mesh: `numpy.fft.rfftn`, and of the mesh of pmesh. -/
def rfftShape (s : List Nat) : List Nat := s.dropLast ++ (s.getLast?.map fun n => n / 2 + 1).toList

/-- The shape of `numpy.fft.irfftn(array)` without `s` (array.py 35). -/
def irfftShape (s : List Nat) : List Nat := s.dropLast ++ (s.getLast?.map fun n => 2 * (n - 1)).toList

/-- `Nmesh` of an `ArrayMesh` (array.py 32-46). -/
def arrayNmesh (complex : Bool) (shape : List Nat) : Except Err (List Nat) :=
  let s := if complex then irfftShape shape else shape
  if s.length = 2 ∨ s.length = 3 then .ok s else .error .assertion

/-- The field of an `ArrayMesh` on `D.length` ranks (array.py 54-63): only `root` passes its array. `flats` are the raveled
arrays on all ranks. -/
def arrayMesh (D : Layout) (root : Nat) (flats : List (List α)) : Except Err (Field α) :=
  unravel D (flats.mapIdx fun r a => if r = root then a else [])

end NBK.MeshFile
