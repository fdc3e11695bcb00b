import Verif.Hermitian.Model
import Mathlib.Analysis.SpecialFunctions.Trigonometric.Basic
import Mathlib.Analysis.Real.Sqrt
import Mathlib.Analysis.SpecialFunctions.Complex.Log
import Mathlib.Algebra.Order.Floor.Semiring

/-!
# Model of `ProjectedFFTPower` (nbodykit/algorithms/fftpower.py 361-505)

The field is given on `rows × N` cells of the two axes that are kept and `nOther` cells of the others; with one axis `rows` is 1. Numbers are real.
-/
namespace NBK.ProjPower

open scoped ComplexConjugate

/-- The phase `exp(-2πi k x / n)` of a discrete Fourier transform. -/
noncomputable def phase (n k x : ℕ) : ℂ := Complex.exp (-(2 * Real.pi * k * x / n : ℝ) * Complex.I)

/-- What does not depend on the field: cells and lengths along the axes. -/
structure Grid where
  rows : ℕ
  N : ℕ
  nOther : ℕ
  Lrow : ℝ
  L : ℝ

/-- `preview` of pmesh: the sum over the axes that are not kept (fftpower.py 431, 442). -/
def preview (g : Grid) (δ : ℕ → ℕ → ℕ → ℝ) (x y : ℕ) : ℝ := ((List.range g.nOther).map fun h => δ x y h).sum

/-- `numpy.fft.rfftn(r) / Nmesh.prod()` (fftpower.py 435, 443). -/
noncomputable def coeff (g : Grid) (δ : ℕ → ℕ → ℕ → ℝ) (i j : ℕ) : ℂ :=
  ((List.range g.rows).map fun x => ((List.range g.N).map fun y => (preview g δ x y : ℂ) * phase g.rows i x * phase g.N j y).sum).sum /
    (g.rows * g.N * g.nOther : ℕ)

/-- `pk` with the zero mode cleared (fftpower.py 445-447). -/
noncomputable def pk (g : Grid) (δ1 δ2 : ℕ → ℕ → ℕ → ℝ) (i j : ℕ) : ℂ :=
  if i = 0 ∧ j = 0 then 0 else coeff g δ1 i j * conj (coeff g δ2 i j)

/-- `kmag` (fftpower.py 449-455), with `fftfreq` in units of the fundamental mode. -/
noncomputable def kmag (g : Grid) (i j : ℕ) : ℝ :=
  Real.sqrt ((Hermitian.freq g.rows i * (2 * Real.pi / g.Lrow)) ^ 2 + (Hermitian.freq g.N j * (2 * Real.pi / g.L)) ^ 2)

open Classical in
/-- `numpy.digitize` for increasing edges. -/
noncomputable def digitize (edges : List ℝ) (v : ℝ) : ℕ := (edges.filter fun e => decide (e ≤ v)).length

open Classical in
/-- `numpy.bincount(dig, weights=W*f)` at the index `b` (fftpower.py 456-477). -/
noncomputable def binSum (g : Grid) (edges : List ℝ) (f : ℕ → ℕ → ℝ) (b : ℕ) : ℝ :=
  Hermitian.projSum g.rows g.N fun i j => if digitize edges (kmag g i j) = b then f i j else 0

/-- The product of the lengths of the axes kept. -/
noncomputable def area (g : Grid) (twoD : Bool) : ℝ := if twoD then g.Lrow * g.L else g.L

/-- The row `b` of the result (fftpower.py 479-485): mean k, real and imaginary part of the power, modes; the first and last bin of `digitize` are dropped. -/
noncomputable def result (g : Grid) (twoD : Bool) (edges : List ℝ) (δ1 δ2 : ℕ → ℕ → ℕ → ℝ) (b : ℕ) : ℝ × ℝ × ℝ × ℝ :=
  let n := binSum g edges (fun _ _ => 1) (b + 1)
  (binSum g edges (kmag g) (b + 1) / n,
   binSum g edges (fun i j => (pk g δ1 δ2 i j).re) (b + 1) / n * area g twoD,
   binSum g edges (fun i j => (pk g δ1 δ2 i j).im) (b + 1) / n * area g twoD,
   n)

/-- The smallest number of cells and the largest length of the axes kept. -/
noncomputable def cells (g : Grid) (twoD : Bool) : ℕ := if twoD then min g.rows g.N else g.N
noncomputable def extent (g : Grid) (twoD : Bool) : ℝ := if twoD then max g.Lrow g.L else g.L

/-- `numpy.arange(kmin, numpy.pi * Nmesh[axes].min() / BoxSize[axes].max() + dk/2, dk)` (fftpower.py 467-470) for `dk > 0`. -/
noncomputable def kedges (g : Grid) (twoD : Bool) (kmin dk : ℝ) : List ℝ :=
  (List.range ⌈(Real.pi * cells g twoD / extent g twoD + dk / 2 - kmin) / dk⌉₊).map fun m : ℕ => kmin + m * dk

/-- The rows of `power` (fftpower.py 479-485). Simplified: without any edge the code raises, here the result is empty. -/
noncomputable def run (g : Grid) (twoD : Bool) (kmin dk : ℝ) (δ1 δ2 : ℕ → ℕ → ℕ → ℝ) : List (ℝ × ℝ × ℝ × ℝ) :=
  (List.range ((kedges g twoD kmin dk).length - 1)).map (result g twoD (kedges g twoD kmin dk) δ1 δ2)

end NBK.ProjPower
