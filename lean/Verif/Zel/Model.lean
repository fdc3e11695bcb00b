import Mathlib.MeasureTheory.Integral.IntervalIntegral.Basic
import Mathlib.Analysis.SpecialFunctions.Pow.Real
import Mathlib.Analysis.SpecialFunctions.Trigonometric.Basic

/-!
# Model of the integrals of ZeldovichPower (nbodykit/cosmology/power/zeldovich.py) and of velocity_dispersion (nbodykit/cosmology/power/linear.py)

Numbers are real. `quad` is the integral. A transform of the package `mcfit` is the integral that it approximates on a logarithmic grid, over the range of the grid (with `extrap=True` the range
is wider than the grid), evaluated at the point where the spline through its values is asked.
-/
set_option linter.unusedSimpArgs false
namespace NBK.Zel
open Real

/-- `velocity_dispersion` (linear.py 158-182). The integral is a Python float, whose power 0.5 is a complex number if it is negative. -/
noncomputable def velocityDispersion (P : ℝ → ℝ) (kmin kmax : ℝ) : ℂ :=
  let integrand (logq : ℝ) : ℝ :=
    let q := exp logq
    q * P q
  let sigmasq : ℝ := (∫ x in log kmin..log kmax, integrand x) / (6 * π ^ 2)
  (sigmasq : ℂ) ^ (0.5 : ℂ)

/-- The spherical Bessel functions, by their recurrence. -/
noncomputable def sph : ℕ → ℝ → ℝ
  | 0, x => sin x / x
  | 1, x => sin x / x ^ 2 - cos x / x
  | n + 2, x => (2 * n + 3) / x * sph (n + 1) x - sph n x

/-- An `mcfit` with the kernel `Mellin_SphericalBesselJ(l)`: the range of the integral, the factors before and after it, and `l`. -/
structure Mcfit where
  lo : ℝ
  hi : ℝ
  prefac : ℝ → ℝ
  postfac : ℝ → ℝ
  l : ℕ

/-- Application of a transform: `postfac(y) ∫ prefac(x) F(x) K(xy) dx/x` with `K = sqrt(2/pi) j_l`. -/
noncomputable def Mcfit.apply (m : Mcfit) (F : ℝ → ℝ) (y : ℝ) : ℝ :=
  m.postfac y * ∫ x in m.lo..m.hi, m.prefac x * F x * (sqrt (2 / π) * sph m.l (x * y)) / x

/-- `ZeldovichJ0` (zeldovich.py 186-202). -/
noncomputable def zeldovichJ0 (lo hi : ℝ) : Mcfit := ⟨lo, hi, fun k => k, fun _ => 1 / (2 * π) ^ (1.5 : ℝ), 0⟩

/-- `ZeldovichJ1` (zeldovich.py 204-220). -/
noncomputable def zeldovichJ1 (lo hi : ℝ) : Mcfit := ⟨lo, hi, fun _ => 1, fun y => 1 / (2 * π) ^ (1.5 : ℝ) / y, 1⟩

/-- `ZeldovichPowerIntegral` (zeldovich.py 222-240). -/
noncomputable def zeldovichPowerIntegral (lo hi : ℝ) (n : ℕ) : Mcfit := ⟨lo, hi, fun r => r ^ (3 - (n : ℤ)), fun _ => (2 * π) ^ (1.5 : ℝ), n⟩

/-- What `_setup` stores. -/
structure State where
  Plin : ℝ → ℝ
  X : ℝ → ℝ
  Y : ℝ → ℝ
  sigmasq : ℝ
  Q3 : ℝ

/-- `_setup` (zeldovich.py 80-105); `lo` and `hi` bound the wavenumbers of the transforms. -/
noncomputable def setup (P : ℝ → ℝ) (lo hi : ℝ) : State :=
  let I0 := (zeldovichJ0 lo hi).apply P
  let I1 := (zeldovichJ1 lo hi).apply P
  let sigmasq := (velocityDispersion P 1e-5 10 ^ 2).re
  { Plin := P
    X := fun r => -2 * I1 r + 2 * sigmasq
    Y := fun r => -2 * I0 r + 6 * I1 r
    sigmasq := sigmasq
    Q3 := ∫ q in (1e-6 : ℝ)..100, (P q / q) ^ 2 }

/-- `_low_k_approx` (zeldovich.py 133-150). -/
noncomputable def State.lowK (s : State) (k : ℝ) : ℝ :=
  let Q3 := 1 / (10 * π ^ 2) * k ^ 4 * s.Q3
  let Plin := s.Plin k
  let term1 := (1 - k ^ 2 * s.sigmasq + 0.5 * k ^ 4 * s.sigmasq ^ 2) * Plin
  let term2 := 0.5 * Q3
  term1 + term2

/-- The function `f` of order `n` in `Pzel_at_k` (zeldovich.py 173-177). -/
noncomputable def State.f (s : State) (k : ℝ) (n : ℕ) (r : ℝ) : ℝ :=
  if n > 0 then (k * s.Y r) ^ n * exp (-0.5 * k ^ 2 * (s.X r + s.Y r))
  else exp (-0.5 * k ^ 2 * (s.X r + s.Y r)) - exp (-k ^ 2 * s.sigmasq)

/-- The sum over the orders 0 to `nmax` (zeldovich.py 170-182); `a` and `b` bound the separations. -/
noncomputable def State.full (s : State) (a b : ℝ) (nmax : ℕ) (k : ℝ) : ℝ :=
  (List.range (nmax + 1)).foldl (fun Pzel n => Pzel + (zeldovichPowerIntegral a b n).apply (s.f k n) k) 0

/-- `Pzel_at_k` (zeldovich.py 163-182). -/
noncomputable def State.pzelAtK (s : State) (a b : ℝ) (nmax : ℕ) (k : ℝ) : ℝ :=
  if k < 5e-3 then s.lowK k else s.full a b nmax k

/-- The argument or result of a call: a number or an array, with its values in order. -/
inductive Arg where
  | scalar (x : ℝ)
  | array (l : List ℝ)

inductive Err where
  | valueError
  deriving DecidableEq

/-- `vectorize_if_needed` with one argument (zeldovich.py 12-26). `numpy.vectorize` refuses an array without elements. -/
def vectorizeIfNeeded (func : ℝ → ℝ) : Arg → Except Err Arg
  | .scalar x => .ok (.scalar (func x))
  | .array [] => .error .valueError
  | .array l => .ok (.array (l.map func))

/-- `ZeldovichPower.__call__` (zeldovich.py 152-184) on an object with the state `s`. -/
noncomputable def State.call (s : State) (a b : ℝ) (nmax : ℕ) (k : Arg) : Except Err Arg :=
  vectorizeIfNeeded (s.pzelAtK a b nmax) k

end NBK.Zel
