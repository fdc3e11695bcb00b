import Verif.Rng.Model
import Mathlib.Data.Rat.Floor
import Mathlib.Algebra.Order.Ring.Rat

/-!
# Model of `poisson_sample_to_points` and `gaussian_complex_fields` (nbodykit/mockmaker.py)

Numbers are rational. A cell is its three indices. The random generators are the collective ones of `Verif.Rng`. Sorting
(`mpsort.sort`) is a parameter that gives the order of the items.
-/
namespace NBK.Mock

/-- A vector. -/
structure Vec where
  x : ℚ
  y : ℚ
  z : ℚ
  deriving DecidableEq, Repr

/-- Indices of a cell. -/
structure Cell where
  i : Nat
  j : Nat
  k : Nat
  deriving DecidableEq, Repr

/-- The mesh and everything random. -/
structure Env (σ : Type) where
  /-- `Nmesh` -/
  nmesh : Cell
  /-- `H = BoxSize / Nmesh` -/
  H : Vec
  nbar : ℚ
  bias : ℚ
  /-- `numpy.exp` -/
  exp : ℚ → ℚ
  /-- the linear density -/
  delta : Cell → ℚ
  /-- the linear displacement -/
  disp : Cell → Vec
  /-- `chunksize` of `MPIRandomState`, and the seeds of its chunks for `seed1` and `seed2` -/
  chunk : Nat
  seeds1 : Nat → σ
  seeds2 : Nat → σ
  /-- `poisson` of a serial generator -/
  poisson : σ → List ℚ → List Nat
  /-- three uniform numbers in `[0, 1)` of a serial generator per item -/
  uniform : σ → List Unit → List Vec
  /-- the orders of the two calls of `mpsort.sort` -/
  argsort1 : List Int → List Nat
  argsort2 : List Int → List Nat

/-- The number of cells. -/
def ncells (n : Cell) : Nat := n.i * n.j * n.k

/-- The cell of a flat index in C order. -/
def cellOf (n : Cell) (id : Nat) : Cell := ⟨id / n.k / n.j, id / n.k % n.j, id % n.k⟩

/-- The flat index of a cell. -/
def flat (n c : Cell) : Nat := (c.i * n.j + c.j) * n.k + c.k

/-- All cells in C order. -/
def cells (n : Cell) : List Cell := (List.range (ncells n)).map (cellOf n)

/-- `lognormal_transform` (mockmaker.py 213-243). -/
def lognormal (exp : ℚ → ℚ) (n : Cell) (delta : Cell → ℚ) (bias : ℚ) (c : Cell) : ℚ :=
  exp (bias * delta c) / (((cells n).map fun c => exp (bias * delta c)).sum / ncells n)

/-- `cellmean` (mockmaker.py 284-297). -/
def cellmean {σ : Type} (e : Env σ) (c : Cell) : ℚ :=
  lognormal e.exp e.nmesh e.delta (e.bias - 1) c * (e.H.x * e.H.y * e.H.z * e.nbar)

/-- The corner of a cell (`generate_uniform_particle_grid(shift=0.0)`). -/
def corner {σ : Type} (e : Env σ) (c : Cell) : Vec := ⟨c.i * e.H.x, c.j * e.H.y, c.k * e.H.z⟩

/-- `orderby` (mockmaker.py 338-341). `int64` truncates, which is the floor here. -/
def orderby {σ : Type} (e : Env σ) (p : Vec) : Int :=
  let o := ⌊p.x / e.H.x + 1 / 2⌋
  let o := o * e.nmesh.j + ⌊p.y / e.H.y + 1 / 2⌋
  o * e.nmesh.k + ⌊p.z / e.H.z + 1 / 2⌋

/-- The items of all ranks in the order given, every rank with as many as before. -/
def sortAs {α : Type} (order : List Nat) (D : List (List α)) : List (List α) :=
  let S := order.filterMap fun i => D.flatten[i]?
  (D.map List.length).mapIdx fun r n => (S.drop (((D.map List.length).take r).sum)).take n

/-- `x % L` for positive `L`. -/
def wrap (x L : ℚ) : ℚ := x - L * ⌊x / L⌋

/-- The last step (mockmaker.py 350-354): the shift within the cell, drawn up to `H[i]` with the `i` left over from the loop
over the other axes, that is the last one, and the periodic box. -/
def place {σ : Type} (e : Env σ) (p u : Vec) : Vec :=
  let h := e.H.z
  ⟨wrap (p.x + h * u.x) (e.H.x * e.nmesh.i), wrap (p.y + h * u.y) (e.H.y * e.nmesh.j),
    wrap (p.z + h * u.z) (e.H.z * e.nmesh.k)⟩

/-- `poisson_sample_to_points` (mockmaker.py 246-359). `rav` are the cells of the flat arrays of `ravel`, `own` the cells in the
local volumes of the ranks. -/
def sample {σ : Type} (e : Env σ) (rav own : List (List Cell)) : Except Rng.Err (List (List Vec) × List (List Vec)) := do
  let nravel ← Rng.call e.chunk e.seeds1 e.poisson (rav.map fun r => r.map (cellmean e))
  let count : Cell → Nat := fun c => nravel.flatten.getD (flat e.nmesh c) 0
  let pos := own.map fun r => r.flatMap fun c => List.replicate (count c) (corner e c)
  let disp := own.map fun r => r.flatMap fun c => List.replicate (count c) (e.disp c)
  let keys := pos.flatten.map (orderby e)
  let pos := sortAs (e.argsort1 keys) pos
  let disp := sortAs (e.argsort2 keys) disp
  let shift ← Rng.call e.chunk e.seeds2 e.uniform (pos.map fun r => r.map fun _ => ())
  let pos := List.zipWith (fun p s => List.zipWith (place e) p s) pos shift
  pure (pos, disp)

/-- A complex number. -/
structure Cx where
  re : ℚ
  im : ℚ
  deriving DecidableEq, Repr

/-- A mode of the result of `gaussian_complex_fields` (mockmaker.py 75-138): the white noise `w` of the mode at `k`, with
`amp k2` the root of `P(k) / V`. -/
def gaussDelta (inverted : Bool) (amp : ℚ → ℚ) (k : Vec) (w : Cx) : Cx :=
  let d := if inverted then ⟨w.re * -1, w.im * -1⟩ else w
  let k2 := k.x ^ 2 + k.y ^ 2 + k.z ^ 2
  let zero := k2 = 0
  let k2 := if zero then 1 else k2
  let d : Cx := ⟨d.re * amp k2, d.im * amp k2⟩
  if zero then ⟨0, 0⟩ else d

/-- The displacement of the mode along a direction (mockmaker.py 90-94, 128-135): the array starts as `1j`. -/
def gaussDisp (comp : Vec → ℚ) (k : Vec) (d : Cx) : Cx :=
  let k2 := k.x ^ 2 + k.y ^ 2 + k.z ^ 2
  let zero := k2 = 0
  let k2 := if zero then 1 else k2
  let v : Cx := ⟨comp k / k2 * d.re, comp k / k2 * d.im⟩
  let v : Cx := ⟨0 * v.re - 1 * v.im, 0 * v.im + 1 * v.re⟩
  if zero then ⟨0, 0⟩ else v

end NBK.Mock
