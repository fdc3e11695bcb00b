import Mathlib.Algebra.Ring.Defs
import Mathlib.Data.List.FinRange
import Mathlib.Data.List.Sort

/-!
# Model of `ConvolvedFFTPower._compute_multipoles` (nbodykit/algorithms/convpower/fkp.py 408-655)

The arrays of the function live in a heap, so that the aliases of an auto-correlation (`rfield2 = rfield1`,
`A0_2 = A0_1`) and the work arrays that are used again and again are those of the code.  Numbers are in a commutative
ring `K` with an arbitrary map `conj`.  The arrays of all ranks are taken as one array of `n` cells: all steps are cell
by cell, except the FFT and the projection on bins, which are parameters.
-/
namespace NBK.Convpower

/-- The exceptions: a structured dtype with two fields of the same name (ValueError), and a local variable that is
not bound. -/
inductive Err where
  | valueError
  | unboundLocal
  deriving DecidableEq, Repr

/-- What the function gets from elsewhere. -/
structure Env (n : Nat) (K β γ δ : Type) where
  /-- the painted fields of the two meshes (fkp.py 469, 493) -/
  field1 : Fin n → K
  field2 : Fin n → K
  /-- the FFT -/
  r2c : (Fin n → K) → Fin n → K
  /-- complex conjugation -/
  conj : K → K
  /-- the compensations: what a mode is multiplied with (fkp.py 431-440) -/
  comp1 : Option (Fin n → K)
  comp2 : Option (Fin n → K)
  /-- the spherical harmonics of an `ell`, for `m` from `-ell` to `ell`, on the cells and on the modes (fkp.py 466) -/
  ylms : Nat → List ((Fin n → K) × (Fin n → K))
  /-- `pm.BoxSize.prod()`, `4*numpy.pi` and `norm` -/
  volume : K
  fourPi : K
  norm : K
  /-- `project_to_basis`: mean wavenumbers, power and number of modes of the bins; only the power depends on the values -/
  projK : β
  projP : (Fin n → K) → δ
  projN : γ

/-- The arrays. -/
inductive Ref where
  | rfield1 | rfield2 | cfield | A01 | A02 | density2 | Aell
  deriving DecidableEq, Repr

abbrev Heap (n : Nat) (K : Type) := Ref → Fin n → K

/-- `a[:] = v`: the right hand side is computed first. -/
def assign {n : Nat} {K : Type} (h : Heap n K) (r : Ref) (v : Fin n → K) : Heap n K :=
  fun r' => if r' = r then v else h r'

/-- A loop over the slabs that sets the values of a slab from values of the same slab of several arrays; the slabs are
single cells here. The arrays that are read may be the one that is written. -/
def slabLoop {n : Nat} {K : Type} (h : Heap n K) (r : Ref) (g : Heap n K → Fin n → K) : Heap n K :=
  (List.finRange n).foldl (fun h i => fun r' j => if r' = r ∧ j = i then g h i else h r' j) h

section
variable {n : Nat} {K β γ δ : Type} [CommRing K]

/-- `field.apply(out=Ellipsis, **compensation)` if there is one. -/
def compensate (h : Heap n K) (r : Ref) (c : Option (Fin n → K)) : Heap n K :=
  c.elim h fun w => assign h r fun i => h r i * w i

/-- One spherical harmonic (fkp.py 582-597): the field 2 is reset, multiplied, transformed, multiplied, added. -/
def ylmStep (e : Env n K β γ δ) (ref2 : Ref) (h : Heap n K) (y : (Fin n → K) × (Fin n → K)) : Heap n K :=
  let h := assign h ref2 (h .density2)
  let h := slabLoop h ref2 fun h i => h ref2 i * y.1 i
  let h := assign h .cfield (e.r2c (h ref2))
  let h := slabLoop h .cfield fun h i => h .cfield i * y.2 i
  assign h .Aell fun i => h .Aell i + h .cfield i

/-- One multipole `ell > 0` (fkp.py 575-619): the heap afterwards; the power is in `Aell`. -/
def ellStep (e : Env n K β γ δ) (ref2 : Ref) (h : Heap n K) (ell : Nat) : Heap n K :=
  let h := assign h .Aell fun _ => 0
  let h := (e.ylms ell).foldl (ylmStep e ref2) h
  let h := compensate h .Aell e.comp2
  let h := assign h .Aell fun i => h .Aell i * (e.fourPi * e.volume)
  slabLoop h .Aell fun h i => e.norm * h .A01 i * e.conj (h .Aell i)

/-- The structured array `result`: the columns `k`, `modes` and `power_ell`; `none` is memory that was not written. -/
structure Result (β γ δ : Type) where
  k : Option β
  modes : Option γ
  power : List (Nat × Option δ)
  deriving DecidableEq

/-- The column of `ell` is written. -/
def setPower (p : List (Nat × Option δ)) (ell : Nat) (v : δ) : List (Nat × Option δ) :=
  p.map fun q => if q.1 = ell then (q.1, some v) else q

/-- The loop over the multipoles `ell > 0` (fkp.py 573-623), with the result and whether `proj_result` is bound. -/
def ellLoop (e : Env n K β γ δ) (ref2 : Ref) : List Nat → Heap n K × List (Nat × Option δ) × Bool →
    Heap n K × List (Nat × Option δ) × Bool
  | [], s => s
  | ell :: l, (h, p, _) =>
    let h := ellStep e ref2 h ell
    ellLoop e ref2 l (h, setPower p ell (e.projP (h .Aell)), true)

/-- The first part (fkp.py 468-523): paints and transforms the fields. -/
def prepare (e : Env n K β γ δ) (auto zero : Bool) (h : Heap n K) : Heap n K :=
  let h := assign h .rfield1 e.field1
  let h := assign h .cfield (e.r2c (h .rfield1))
  let h := compensate h .cfield e.comp1
  let h := assign h .A01 fun i => h .cfield i * e.volume
  let h := if auto then h else
    let h := assign h .rfield2 e.field2
    if zero then
      let h := assign h .A02 (e.r2c (h .rfield2))
      let h := assign h .A02 fun i => h .A02 i * e.volume
      compensate h .A02 e.comp2
    else h
  assign h .density2 (h (if auto then .rfield1 else .rfield2))

/-- `_compute_multipoles` (fkp.py 408-655) from the poles asked for; `auto` is `first is second`; `h` is the memory
before, of which nothing is read. -/
def multipoles (e : Env n K β γ δ) (auto : Bool) (asked : List Nat) (h : Heap n K) : Except Err (Result β γ δ) :=
  let sorted := asked.insertionSort (· ≤ ·)
  -- the structured dtype (fkp.py 450-453)
  if ¬ sorted.Nodup then .error .valueError else
  let cols := sorted.map fun ell => (ell, (none : Option δ))
  -- always need ell = 0 (fkp.py 459-463)
  let poles := if 0 ∈ sorted then sorted else 0 :: sorted
  let h := prepare e auto (decide (0 ∈ asked)) h
  let ref2 := if auto then Ref.rfield1 else Ref.rfield2
  let a02 := if auto then Ref.A01 else Ref.A02
  let (h, p, bound) := ellLoop e ref2 poles.tail (h, cols, false)
  let (p, bound) :=
    if 0 ∈ asked then
      let h := slabLoop h .A01 fun h i => e.norm * h .A01 i * e.conj (h a02 i)
      (setPower p 0 (e.projP (h .A01)), true)
    else (p, bound)
  if bound then .ok ⟨some e.projK, some e.projN, p⟩ else .error .unboundLocal

end
end NBK.Convpower
