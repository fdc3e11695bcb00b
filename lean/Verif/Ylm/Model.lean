import Mathlib.Algebra.Polynomial.Derivative
import Mathlib.Algebra.Polynomial.Eval.Defs
import Mathlib.Data.Complex.Basic
import Mathlib.Data.Nat.Factorial.Basic
import Mathlib.Analysis.SpecialFunctions.Trigonometric.Basic

/-!
# Model of the spherical harmonics (algorithms/convpower/fkp.py 12-73, algorithms/threeptcf.py 482-534)

Sympy is external: `legendre`, `assocLegendre` are its definitions (`legendre_poly`, `assoc_legendre`).  Its simplifications
are taken to yield the polynomials `realYlm` and `complexYlm` of the Cartesian unit vector; `Verif.Ylm.Props` proves that these
are equal to the expressions before the simplification.
-/
noncomputable section
namespace NBK.Ylm
open Polynomial

/-- The Legendre polynomial, by the recurrence with which sympy computes it. -/
def legendre : Nat → ℝ[X]
  | 0 => 1
  | 1 => X
  | n + 2 => C (1 / ((n : ℝ) + 2)) * (C (2 * (n : ℝ) + 3) * (X * legendre (n + 1)) - C ((n : ℝ) + 1) * legendre n)

/-- The derivatives of the Legendre polynomial. -/
def dleg (l m : Nat) : ℝ[X] := derivative^[m] (legendre l)

/-- `sp.assoc_legendre(l, m, x)` for `0 <= m`, with the phase of Condon and Shortley. -/
def assocLegendre (l m : Nat) (x : ℝ) : ℝ := (-1) ^ m * Real.sqrt (1 - x ^ 2) ^ m * (dleg l m).eval x

/-- `amp` (fkp.py 49-52). -/
def amp (l : Nat) (m : Int) : ℝ :=
  if m = 0 then Real.sqrt ((2 * l + 1) / (4 * Real.pi))
  else Real.sqrt (2 * (2 * l + 1) / (4 * Real.pi) * (l - m.natAbs).factorial / (l + m.natAbs).factorial)

/-- The harmonic as a function of the angles, before the substitution (fkp.py 49-61). -/
def realYlmAngles (l : Nat) (m : Int) (θ φ : ℝ) : ℝ :=
  amp l m * ((-1) ^ m.natAbs * assocLegendre l m.natAbs (Real.cos θ) *
    (if m < 0 then Real.sin (m.natAbs * φ) else if 0 < m then Real.cos (m * φ) else 1))

/-- `get_real_Ylm(l, m)` (fkp.py 12-73), after the substitution of the Cartesian unit vector (63-66). -/
def realYlm (l : Nat) (m : Int) (x y z : ℝ) : ℝ :=
  amp l m * ((dleg l m.natAbs).eval z *
    (if m < 0 then ((⟨x, y⟩ : ℂ) ^ m.natAbs).im else ((⟨x, y⟩ : ℂ) ^ m.natAbs).re))

/-- The harmonics of an `ell` (fkp.py 466). -/
def realYlms (l : Nat) (x y z : ℝ) : List ℝ := (List.range (2 * l + 1)).map fun (i : Nat) => realYlm l ((i : Int) - l) x y z

/-- The amplitude of the complex harmonics (threeptcf.py 530-531). -/
def ampC (l m : Nat) : ℝ := Real.sqrt ((2 * l + 1) / (4 * Real.pi) * (l - m).factorial / (l + m).factorial)

/-- `YlmCache._get_Ylm(l, m)` as a function of the angles (threeptcf.py 518-521). -/
def complexYlmAngles (l m : Nat) (θ φ : ℝ) : ℂ :=
  ampC l m * (assocLegendre l m (Real.cos θ) * (Real.cos (m * φ) + Complex.I * Real.sin (m * φ)))

/-- `YlmCache._get_Ylm(l, m)` of the unit vector (threeptcf.py 482-534). -/
def complexYlm (l m : Nat) (x y z : ℝ) : ℂ :=
  (ampC l m * ((-1) ^ m * (dleg l m).eval z) : ℝ) * (⟨x, y⟩ : ℂ) ^ m

/-- A vector of the grids of cells and of modes. -/
structure V3 where
  x : ℝ
  y : ℝ
  z : ℝ

/-- `xnorm`, `knorm` (fkp.py 532, 537). -/
def V3.norm (v : V3) : ℝ := Real.sqrt (v.x ^ 2 + v.y ^ 2 + v.z ^ 2)

/-- `xgrid` (fkp.py 531-533); nan for a cell at the observer. -/
def xhat (v : V3) : Option V3 := if v.norm = 0 then none else some ⟨v.x / v.norm, v.y / v.norm, v.z / v.norm⟩

/-- `kgrid` (fkp.py 536-538): the zero mode is divided by infinity. -/
def khat (v : V3) : V3 := if v.norm = 0 then ⟨0, 0, 0⟩ else ⟨v.x / v.norm, v.y / v.norm, v.z / v.norm⟩

/-- The coordinate of cell `j` along an axis with `n` cells (fkp.py 455-457, 531): pmesh gives `j box / n`, less `box` in the
upper half. -/
def cellCoord (center box : ℝ) (n j : Nat) : ℝ :=
  (j * box / n - if 2 * j < n then 0 else box) + (center + 0.5 * box / n)

end NBK.Ylm
