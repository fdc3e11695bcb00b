import Mathlib.Analysis.SpecialFunctions.Log.Basic
import Mathlib.Analysis.Real.Sqrt
import Mathlib.Data.List.Sort

/-!
# Model of the growth functions (nbodykit/cosmology/background.py) and of the fluid model (linearnbody.py)

The grid and the interpolation are over an ordered field with a parameter for the logarithm; the equations are over the reals. The solver
`odeint` is a parameter: a function of `ln a` that does not depend on the points where it is asked.
-/
namespace NBK.Growth

section grid
variable {K : Type} [Field K] [LinearOrder K]

/-- The state of the equation: `D1, F1, D2, F2`. -/
structure State (K : Type) where
  D1 : K
  F1 : K
  D2 : K
  F2 : K

/-- A high redshift starting point in front of a sorted list (background.py 28-29). -/
def addStart (start : K) : List K → List K
  | [] => []
  | x :: l => if x > start then start :: x :: l else x :: l

/-- The scale factors of the grid (background.py 21-31). `start` is `1e-7` and `dflt` the grid for `a=None`. -/
def gridA (start : K) (dflt : List K) (a : Option (List K)) (norm : K) : List K :=
  match a with
  | none => dflt
  | some a => addStart start ((if norm ∈ a then a else norm :: a).insertionSort (· ≤ ·))

/-- `numpy.interp` of the nodes `(x, f)` in increasing order. -/
def interp : List (K × K) → K → K
  | [], _ => 0
  | [p], _ => p.2
  | p :: q :: l, x =>
    if x < q.1 then (if x ≤ p.1 then p.2 else p.2 + (q.2 - p.2) / (q.1 - p.1) * (x - p.1))
    else interp (q :: l) x

/-- `abs(l - x).argmin()`: the first element with the smallest distance. -/
def nearest (x : K) : List K → Option K
  | [] => none
  | a :: l => match nearest x l with
    | none => some a
    | some b => if |a - x| ≤ |b - x| then some a else some b

/-- A `Perturbation` object: `lna` with the rows of `_D1` and `_D2` (three orders each). -/
structure Obj (K : Type) where
  lna : List K
  v1 : List (K × K × K)
  v2 : List (K × K × K)

/-- `__init__` and `_solve` (background.py 19-37, 186-208): `y` is the solution at `lna` and `ode` the right hand side; the division is by the
value at the grid point nearest to `a_normalize`. -/
def init (log : K → K) (y : K → State K) (ode : State K → K → State K) (start : K) (dflt : List K) (a : Option (List K)) (norm : K) : Obj K :=
  let lna := (gridA start dflt a norm).map log
  let n := (nearest (log norm) lna).getD 0
  let d1 := (y n).D1
  let d2 := (y n).D2
  { lna := lna
    v1 := lna.map fun x => ((y x).D1 / d1, (y x).F1 / d1, (ode (y x) x).F1 / d1)
    v2 := lna.map fun x => ((y x).D2 / d2, (y x).F2 / d2, (ode (y x) x).F2 / d2) }

/-- A column of the rows. -/
def col (order : Nat) (r : K × K × K) : K := match order with
  | 0 => r.1
  | 1 => r.2.1
  | _ => r.2.2

/-- `D1(a, order)` (background.py 39-54). -/
def Obj.D1 (log : K → K) (o : Obj K) (a : K) (order : Nat) : K := interp (o.lna.zip (o.v1.map (col order))) (log a)

/-- `D2(a, order)` (background.py 56-71). -/
def Obj.D2 (log : K → K) (o : Obj K) (a : K) (order : Nat) : K := interp (o.lna.zip (o.v2.map (col order))) (log a)

end grid

/-! ## Equations -/

/-- The background: `efunc`, `efunc_prime` and `Om` of the scale factor. -/
structure Bg where
  efunc : ℝ → ℝ
  efuncPrime : ℝ → ℝ
  Om : ℝ → ℝ

/-- `E(a, order)` (background.py 163-170). -/
def Bg.E (b : Bg) (a : ℝ) (order : Nat) : ℝ := if order = 0 then b.efunc a else b.efuncPrime a * a

/-- `Hfac` (background.py 172-173). -/
noncomputable def Bg.Hfac (b : Bg) (a : ℝ) : ℝ := -2 - b.E a 1 / b.E a 0

/-- `ode` (background.py 175-184). -/
noncomputable def Bg.ode (b : Bg) (y : State ℝ) (lna : ℝ) : State ℝ :=
  let a := Real.exp lna
  let hfac := b.Hfac a
  let omega := b.Om a
  { D1 := y.F1
    F1 := hfac * y.F1 + 3 / 2 * omega * y.D1
    D2 := y.F2
    F2 := hfac * y.F2 + 3 / 2 * omega * y.D2 - 3 / 2 * omega * y.D1 ^ 2 }

/-- `MatterDominated` (background.py 231-256). -/
noncomputable def matter (Om Ok Ol : ℝ) : Bg :=
  { efunc := fun a => Real.sqrt (Om / a ^ 3 + Ok / a ^ 2 + Ol)
    efuncPrime := fun a => 1 / 2 / Real.sqrt (Om / a ^ 3 + Ok / a ^ 2 + Ol) * (-3 * Om / a ^ 4 + -2 * Ok / a ^ 3)
    Om := fun a => (Om / a ^ 3) / Real.sqrt (Om / a ^ 3 + Ok / a ^ 2 + Ol) ^ 2 }

/-- The initial condition of `MatterDominated` (background.py 242-247). -/
noncomputable def matterInit (lna0 : ℝ) : State ℝ :=
  let a0 := Real.exp lna0
  ⟨a0, a0, -3 / 7 * a0 ^ 2, -6 / 7 * a0 ^ 2⟩

/-- The initial condition of `RadiationDominated` (background.py 293-310), with `aH` its constant. -/
noncomputable def radiationInit (Om : ℝ → ℝ) (aH : ℝ) (lna0 : ℝ) : State ℝ :=
  let a0 := Real.exp lna0
  let om := Om a0
  let D1i := Real.log (a0 / aH)
  ⟨D1i, 1, -3 / 2 * om * (D1i ^ 2 - 4 * D1i + 6), -3 / 2 * om * (D1i ^ 2 - 2 * D1i + 2)⟩

/-- `Gp`, `Gp2` (background.py 105-115) from `D1(a)` or `D2(a)`. -/
def Gp (D : ℝ → Nat → ℝ) (a : ℝ) : ℝ := D a 0

/-- `gp`, `gp2` (background.py 117-128). -/
noncomputable def gp (D : ℝ → Nat → ℝ) (a : ℝ) : ℝ := D a 1 / a

/-- `Gf`, `Gf2` (background.py 130-139). -/
def Gf (b : Bg) (D : ℝ → Nat → ℝ) (a : ℝ) : ℝ := D a 1 * a ^ 2 * b.E a 0

/-- `gf`, `gf2` (background.py 141-162). -/
noncomputable def gf (b : Bg) (D : ℝ → Nat → ℝ) (a : ℝ) : ℝ :=
  1 / a * (D a 2 * a ^ 2 * b.E a 0 + D a 1 * (a ^ 2 * b.E a 1 + 2 * a ^ 2 * b.E a 0))

/-- The densities of the three species in `LinearNbody` as functions of the scale factor. -/
structure Fluids where
  efunc : ℝ → ℝ
  cdm : ℝ → ℝ
  b : ℝ → ℝ
  ncdm : ℝ → ℝ
  cb : ℝ
  /-- `c_ncdm` at a scale factor -/
  cncdm : ℝ → ℝ

/-- `J(k, a)` applied to `q` (linearnbody.py 117-145). -/
noncomputable def Fluids.J (f : Fluids) (k a : ℝ) (q : ℝ × ℝ × ℝ) : ℝ × ℝ × ℝ :=
  let j1 := -(3 / 2) * f.efunc a ^ 2 * a ^ 2 * (f.cdm a * q.1 + f.b a * q.2.1 + f.ncdm a * q.2.2)
  (j1 + 0, j1 + f.cb ^ 2 * k ^ 2 / 100 ^ 2 * q.2.1, j1 + f.cncdm a ^ 2 * k ^ 2 / 100 ^ 2 * q.2.2)

/-- The right hand side in `integrate` (linearnbody.py 93-106): `dq` and `dp` over `dlna`. -/
noncomputable def Fluids.rhs (f : Fluids) (k lna : ℝ) (q p : ℝ × ℝ × ℝ) : (ℝ × ℝ × ℝ) × (ℝ × ℝ × ℝ) :=
  let a := Real.exp lna
  let dt := 1 / f.efunc a
  let j := f.J k a q
  ((p.1 / a ^ 2 * dt, p.2.1 / a ^ 2 * dt, p.2.2 / a ^ 2 * dt), (-j.1 * dt, -j.2.1 * dt, -j.2.2 * dt))

end NBK.Growth
