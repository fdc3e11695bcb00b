import Mathlib.Analysis.SpecialFunctions.Sqrt

/-!
# Model of the slabs of a mesh (nbodykit/meshtools.py)

An array is its shape and its item at each list of indices.  Real numbers in place of floats.
-/
noncomputable section
namespace NBK.Slabs

/-- Python exceptions raised by the modelled code. -/
inductive Err where
  | notImplementedError | assertionError | valueError
  deriving DecidableEq, Repr

/-- A numpy array. -/
structure Arr (β : Type) where
  shape : List Nat
  data : List Nat → β

/-- `numpy.take(a, k, axis)` for an integer `k`. -/
def take {β : Type} (a : Arr β) (k axis : Nat) : Arr β := ⟨a.shape.eraseIdx axis, fun idx => a.data (idx.insertIdx axis k)⟩

/-- The indices of an array with dimensions of size 1, which are broadcast. -/
def clip (shape idx : List Nat) : List Nat := List.zipWith (fun n j => if n = 1 then 0 else j) shape idx

/-- An operation on two arrays with the same number of dimensions and shapes that can be broadcast. -/
def bcast {β γ δ : Type} (op : β → γ → δ) (a : Arr β) (b : Arr γ) : Arr δ :=
  ⟨List.zipWith (fun m n => if m = 1 then n else m) a.shape b.shape, fun idx => op (a.data (clip a.shape idx)) (b.data (clip b.shape idx))⟩

/-- An operation on all items. -/
def mapA {β γ : Type} (f : β → γ) (a : Arr β) : Arr γ := ⟨a.shape, fun idx => f (a.data idx)⟩

/-- `MeshSlab` (meshtools.py 8-33). -/
structure Slab where
  index : Nat
  coords : List (Arr ℝ)
  axis : Nat
  sym : Option Int

/-- Whether the shapes are not those of coordinate arrays, which have one dimension that is not 1 (meshtools.py 245-256). -/
def badShape (coords : List (Arr ℝ)) : Bool :=
  (List.range coords.length).any fun i => (coords[i]?).any fun a =>
    !(decide (a.shape = (List.replicate coords.length 1).set i (a.shape.getD i 0)) && decide (i < a.shape.length))

/-- `SlabIterator(coords, axis, symmetry_axis)` (meshtools.py 217-261) with the check in `MeshSlab.__init__` (30-32). It is a
generator: the errors are raised when the first slab is requested. -/
def slabIterator (coords : List (Arr ℝ)) (axis : Int) (sym : Option Int) : Except Err (List Slab) :=
  let ndim := coords.length
  if ndim ≠ 2 ∧ ndim ≠ 3 then .error .notImplementedError
  else
    let axis := if axis < 0 then axis + ndim else axis
    if ¬ (0 ≤ axis ∧ axis < ndim) then .error .assertionError
    else
      let sym : Option Int := sym.map fun s => if s < 0 then s + (ndim : Int) else s
      if badShape coords then .error .valueError
      else
        let N : Nat := (coords.getD axis.toNat ⟨[], fun _ => 0⟩).shape.getD axis.toNat 0
        if sym.any (fun s => decide (s < 0)) && N != 0 then .error .valueError
        else .ok ((List.range N).map fun i => ⟨i, coords, axis.toNat, sym⟩)

/-- `MeshSlab.meshshape` (meshtools.py 51-57). -/
def Slab.meshshape (s : Slab) : List Nat := s.coords.mapIdx fun i a => a.shape.getD i 0

/-- `MeshSlab.shape` (meshtools.py 59-64). -/
def Slab.shape (s : Slab) : List Nat := s.meshshape.eraseIdx s.axis

/-- `MeshSlab.coords(i)` (meshtools.py 73-102). -/
def Slab.coord (s : Slab) (i : Nat) : Arr ℝ :=
  let a := s.coords.getD i ⟨[], fun _ => 0⟩
  if i ≠ s.axis then take a 0 s.axis else take a s.index s.axis

/-- `sum` of arrays. -/
def sumArr : List (Arr ℝ) → Arr ℝ
  | [] => ⟨[], fun _ => 0⟩
  | a :: l => l.foldl (bcast (· + ·)) a

/-- `MeshSlab.norm2()` (meshtools.py 104-117). -/
def Slab.norm2 (s : Slab) : Arr ℝ := sumArr ((List.range s.coords.length).map fun i => mapA (· ^ 2) (s.coord i))

/-- `MeshSlab.mu(los)` (meshtools.py 119-142). -/
def Slab.mu (s : Slab) (los : Nat → ℝ) : Arr ℝ :=
  let norm := mapA Real.sqrt s.norm2
  let dot := sumArr ((List.range s.coords.length).map fun i => mapA (· * los i) (s.coord i))
  bcast (fun d n => if n = 0 then 0 else d / n) dot norm

open Classical in
/-- `MeshSlab.nonsingular` (meshtools.py 144-186); the array is broadcast to the shape of the slab. -/
def Slab.nonsingular (s : Slab) (sym : Nat) : Arr Bool :=
  if sym = s.axis then ⟨s.shape, fun _ => decide (¬ (s.coord s.axis).data (List.replicate (s.coords.length - 1) 0) ≤ 0)⟩
  else
    let a := take (mapA (fun x => decide (0 < x)) (s.coords.getD sym ⟨[], fun _ => 0⟩)) 0 s.axis
    ⟨s.shape, fun idx => a.data (clip a.shape idx)⟩

open Classical in
/-- `MeshSlab.hermitian_weights` (meshtools.py 188-215), a number or an array; here an array in all cases. -/
def Slab.weights (s : Slab) : Arr ℝ :=
  match s.sym with
  | none => ⟨s.shape, fun _ => 1⟩
  | some sym =>
    if s.axis = sym.toNat then
      ⟨s.shape, fun _ => if 0 < (s.coord s.axis).data (List.replicate (s.coords.length - 1) 0) then 2 else 1⟩
    else mapA (fun b => if b then 2 else 1) (s.nonsingular sym.toNat)

end NBK.Slabs
