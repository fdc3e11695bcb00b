import Mathlib.Analysis.SpecialFunctions.Pow.Real
import Mathlib.Analysis.SpecialFunctions.Trigonometric.Basic

/-!
# Model of the fitting formulas of Eisenstein & Hu (nbodykit/cosmology/power/transfers.py 73-255)

Real numbers in place of floats.  One wavenumber at a time, at redshift 0: the growth factor is that of `Verif.Power`.
-/
noncomputable section
namespace NBK.Ehu
open Real

/-- What the cosmology provides. -/
structure Cosmo where
  Omega0_b : ℝ
  Omega0_m : ℝ
  h : ℝ
  Tcmb0 : ℝ

namespace Cosmo
variable (c : Cosmo)

/-- `Obh2` (transfers.py 94, 204) -/
def Obh2 : ℝ := c.Omega0_b * c.h ^ 2
/-- `Omh2` (transfers.py 95, 205) -/
def Omh2 : ℝ := c.Omega0_m * c.h ^ 2
/-- `f_baryon` (transfers.py 96, 206) -/
def fBaryon : ℝ := c.Omega0_b / c.Omega0_m
/-- `theta_cmb` (transfers.py 97, 207) -/
def theta : ℝ := c.Tcmb0 / 2.7
/-- `z_eq` (transfers.py 100) -/
def zEq : ℝ := 2.5e4 * c.Omh2 * c.theta ^ (-4 : ℝ)
/-- `k_eq` (transfers.py 101, 210) -/
def kEq : ℝ := 0.0746 * c.Omh2 * c.theta ^ (-2 : ℝ)
/-- `z_drag_b1` (transfers.py 104) -/
def zDragB1 : ℝ := 0.313 * c.Omh2 ^ (-0.419 : ℝ) * (1 + 0.607 * c.Omh2 ^ (0.674 : ℝ))
/-- `z_drag_b2` (transfers.py 105) -/
def zDragB2 : ℝ := 0.238 * c.Omh2 ^ (0.223 : ℝ)
/-- `z_drag` (transfers.py 106-107) -/
def zDrag : ℝ := 1291 * c.Omh2 ^ (0.251 : ℝ) / (1 + 0.659 * c.Omh2 ^ (0.828 : ℝ)) * (1 + c.zDragB1 * c.Obh2 ^ c.zDragB2)
/-- `r_drag` (transfers.py 109) -/
def rDrag : ℝ := 31.5 * c.Obh2 * c.theta ^ (-4 : ℝ) * (1000 / (1 + c.zDrag))
/-- `r_eq` (transfers.py 110) -/
def rEq : ℝ := 31.5 * c.Obh2 * c.theta ^ (-4 : ℝ) * (1000 / c.zEq)
/-- `sound_horizon` (transfers.py 112-113) -/
def soundHorizon : ℝ :=
  2 / (3 * c.kEq) * sqrt (6 / c.rEq) * log ((sqrt (1 + c.rDrag) + sqrt (c.rDrag + c.rEq)) / (1 + sqrt c.rEq))
/-- `k_silk` (transfers.py 114) -/
def kSilk : ℝ := 1.6 * c.Obh2 ^ (0.52 : ℝ) * c.Omh2 ^ (0.73 : ℝ) * (1 + (10.4 * c.Omh2) ^ (-0.95 : ℝ))
/-- `alpha_c` (transfers.py 117-119) -/
def alphaC : ℝ :=
  let a1 := (46.9 * c.Omh2) ^ (0.670 : ℝ) * (1 + (32.1 * c.Omh2) ^ (-0.532 : ℝ))
  let a2 := (12.0 * c.Omh2) ^ (0.424 : ℝ) * (1 + (45.0 * c.Omh2) ^ (-0.582 : ℝ))
  a1 ^ (-c.fBaryon) * a2 ^ (-c.fBaryon ^ 3)
/-- `beta_c_b1` (transfers.py 122) -/
def betaCB1 : ℝ := 0.944 / (1 + (458 * c.Omh2) ^ (-0.708 : ℝ))
/-- `beta_c_b2` (transfers.py 123) -/
def betaCB2 : ℝ := 0.395 * c.Omh2 ^ (-0.0266 : ℝ)
/-- `beta_c` (transfers.py 124) -/
def betaC : ℝ := 1 / (1 + c.betaCB1 * ((1 - c.fBaryon) ^ c.betaCB2) - 1)
/-- `alpha_b` (transfers.py 126-128) -/
def alphaB : ℝ :=
  let y := c.zEq / (1 + c.zDrag)
  let G := y * (-6 * sqrt (1 + y) + (2 + 3 * y) * log ((sqrt (1 + y) + 1) / (sqrt (1 + y) - 1)))
  2.07 * c.kEq * c.soundHorizon * (1 + c.rDrag) ^ (-0.75 : ℝ) * G
/-- `beta_node` (transfers.py 130) -/
def betaNode : ℝ := 8.41 * c.Omh2 ^ (0.435 : ℝ)
/-- `beta_b` (transfers.py 131) -/
def betaB : ℝ := 0.5 + c.fBaryon + (3 - 2 * c.fBaryon) * sqrt ((17.2 * c.Omh2) ^ 2 + 1)

end Cosmo

/-- The function `f(a, b)` (transfers.py 169). -/
def frac (q a b : ℝ) : ℝ := a / (a + b * q ^ 2)

/-- `T_c_ln_beta`, and `T_c_ln_nobeta` for beta 1 (transfers.py 163-164). -/
def lnBeta (q beta : ℝ) : ℝ := log (exp 1 + 1.8 * beta * q)

/-- `T_c_C_alpha`, and `T_c_C_noalpha` for alpha 1 (transfers.py 165-166). -/
def cAlpha (q alpha : ℝ) : ℝ := 14.2 / alpha + 386 / (1 + 69.9 * q ^ (1.08 : ℝ))

/-- `T_c` (transfers.py 163-170) for given coefficients. -/
def tC (q ks alpha beta : ℝ) : ℝ :=
  let f := 1 / (1 + (ks / 5.4) ^ 4)
  f * frac q (lnBeta q beta) (cAlpha q 1) + (1 - f) * frac q (lnBeta q beta) (cAlpha q alpha)

/-- `numpy.sinc(x / pi)`: sin(x)/x, and 1 at 0. -/
def sinc (x : ℝ) : ℝ := if x = 0 then 1 else sin x / x

/-- `T_b` (transfers.py 172-178) for given coefficients; `k` in 1/Mpc. -/
def tB (k q s alphaB betaB betaNode kSilk : ℝ) : ℝ :=
  let ks := k * s
  let sTilde := s * (1 + (betaNode / ks) ^ 3) ^ (-1 / 3 : ℝ)
  let T0 := frac q (lnBeta q 1) (cAlpha q 1)
  let T1 := T0 / (1 + (ks / 5.2) ^ 2)
  let T2 := alphaB / (1 + (betaB / ks) ^ 3) * exp (-(k / kSilk) ^ (1.4 : ℝ))
  sinc (k * sTilde) * (T1 + T2)

/-- `EisensteinHu.__call__(k)` (transfers.py 133-182) without the growth factor; 1 for `k <= 0`. -/
def eisensteinHu (c : Cosmo) (k : ℝ) : ℝ :=
  if 0 < k then
    let k := k * c.h
    let q := k / (13.41 * c.kEq)
    c.fBaryon * tB k q c.soundHorizon c.alphaB c.betaB c.betaNode c.kSilk +
      (1 - c.fBaryon) * tC q (k * c.soundHorizon) c.alphaC c.betaC
  else 1

/-- `sound_horizon` of `NoWiggleEisensteinHu` (transfers.py 212-213), in Mpc/h. -/
def Cosmo.soundHorizonFit (c : Cosmo) : ℝ := c.h * 44.5 * log (9.83 / c.Omh2) / sqrt (1 + 10 * c.Obh2 ^ (0.75 : ℝ))

/-- `alpha_gamma` (transfers.py 214-215) -/
def Cosmo.alphaGamma (c : Cosmo) : ℝ :=
  1 - 0.328 * log (431 * c.Omh2) * c.fBaryon + 0.38 * log (22.3 * c.Omh2) * c.fBaryon ^ 2

/-- `T` of an effective wavenumber (transfers.py 250-254). -/
def tNoWiggle (q : ℝ) : ℝ :=
  let L0 := log (2 * exp 1 + 1.8 * q)
  let C0 := 14.2 + 731 / (1 + 62.5 * q)
  L0 / (L0 + C0 * q ^ 2)

/-- `q_eff` (transfers.py 243-249) -/
def qEff (c : Cosmo) (k : ℝ) : ℝ :=
  let k := k * c.h
  let ks := k * c.soundHorizonFit / c.h
  let q := k / (13.41 * c.kEq)
  let gamma := c.Omh2 * (c.alphaGamma + (1 - c.alphaGamma) / (1 + (0.43 * ks) ^ 4))
  q * c.Omh2 / gamma

/-- `NoWiggleEisensteinHu.__call__(k)` (transfers.py 218-255) without the growth factor; 1 for `k <= 0`. -/
def noWiggle (c : Cosmo) (k : ℝ) : ℝ := if 0 < k then tNoWiggle (qEff c k) else 1

end NBK.Ehu
