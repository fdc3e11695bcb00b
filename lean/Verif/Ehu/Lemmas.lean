import Verif.Ehu.Model
import Mathlib.Analysis.SpecialFunctions.Log.Basic
import Mathlib.Analysis.SpecialFunctions.Trigonometric.Sinc
import Mathlib.Analysis.SpecialFunctions.Pow.Continuity
import Mathlib.Tactic.Linarith
import Mathlib.Tactic.Positivity
import Mathlib.Tactic.FieldSimp
import Mathlib.Tactic.NormNum

set_option linter.unusedSimpArgs false
/-! # Facts about the pieces of the fitting formulas -/
noncomputable section
namespace NBK.Ehu
open Real Filter Topology

/-- Positive densities with some dark matter, positive h and temperature. -/
def Cosmo.Valid (c : Cosmo) : Prop := 0 < c.Omega0_b ∧ c.Omega0_b < c.Omega0_m ∧ 0 < c.h ∧ 0 < c.Tcmb0

theorem Obh2_pos {c : Cosmo} (v : c.Valid) : 0 < c.Obh2 := by
  obtain ⟨a, b, d, e⟩ := v; unfold Cosmo.Obh2; positivity
theorem Omh2_pos {c : Cosmo} (v : c.Valid) : 0 < c.Omh2 := by
  obtain ⟨a, b, d, e⟩ := v; have := a.trans b; unfold Cosmo.Omh2; positivity
theorem fB_pos {c : Cosmo} (v : c.Valid) : 0 < c.fBaryon := by
  obtain ⟨a, b, d, e⟩ := v; exact div_pos a (a.trans b)
theorem fB_lt {c : Cosmo} (v : c.Valid) : c.fBaryon < 1 := by
  obtain ⟨a, b, d, e⟩ := v; exact (div_lt_one (a.trans b)).2 b
theorem theta_pos {c : Cosmo} (v : c.Valid) : 0 < c.theta := by
  obtain ⟨a, b, d, e⟩ := v; unfold Cosmo.theta; positivity
theorem kEq_pos {c : Cosmo} (v : c.Valid) : 0 < c.kEq := by
  have := Omh2_pos v; have := theta_pos v; unfold Cosmo.kEq; positivity
theorem zEq_pos {c : Cosmo} (v : c.Valid) : 0 < c.zEq := by
  have := Omh2_pos v; have := theta_pos v; unfold Cosmo.zEq; positivity
theorem zDrag_pos {c : Cosmo} (v : c.Valid) : 0 < c.zDrag := by
  have := Omh2_pos v; have := Obh2_pos v; unfold Cosmo.zDrag Cosmo.zDragB1; positivity
theorem rDrag_pos {c : Cosmo} (v : c.Valid) : 0 < c.rDrag := by
  have := Obh2_pos v; have := theta_pos v; have := zDrag_pos v; unfold Cosmo.rDrag; positivity
theorem rEq_pos {c : Cosmo} (v : c.Valid) : 0 < c.rEq := by
  have := Obh2_pos v; have := theta_pos v; have := zEq_pos v; unfold Cosmo.rEq; positivity
theorem kSilk_pos {c : Cosmo} (v : c.Valid) : 0 < c.kSilk := by
  have := Obh2_pos v; have := Omh2_pos v; unfold Cosmo.kSilk; positivity
theorem betaNode_pos {c : Cosmo} (v : c.Valid) : 0 < c.betaNode := by
  have := Omh2_pos v; unfold Cosmo.betaNode; positivity
theorem betaB_pos {c : Cosmo} (v : c.Valid) : 0 < c.betaB := by
  have := fB_pos v; have h := fB_lt v
  have : 0 < 3 - 2 * c.fBaryon := by linarith
  unfold Cosmo.betaB; positivity
theorem soundHorizon_pos {c : Cosmo} (v : c.Valid) : 0 < c.soundHorizon := by
  have h1 := kEq_pos v; have h2 := rEq_pos v; have h3 := rDrag_pos v
  have : 0 < log ((sqrt (1 + c.rDrag) + sqrt (c.rDrag + c.rEq)) / (1 + sqrt c.rEq)) := by
    apply log_pos
    rw [lt_div_iff₀ (by positivity), one_mul]
    have a : 1 < sqrt (1 + c.rDrag) := by
      rw [lt_sqrt (by norm_num)]; linarith
    have b : sqrt c.rEq < sqrt (c.rDrag + c.rEq) := sqrt_lt_sqrt h2.le (by linarith)
    linarith
  unfold Cosmo.soundHorizon; positivity
theorem alphaC_pos {c : Cosmo} (v : c.Valid) : 0 < c.alphaC := by
  have := Omh2_pos v; unfold Cosmo.alphaC; positivity
theorem betaCB1_pos {c : Cosmo} (v : c.Valid) : 0 < c.betaCB1 := by
  have := Omh2_pos v; unfold Cosmo.betaCB1; positivity
theorem betaCB1_lt {c : Cosmo} (v : c.Valid) : c.betaCB1 < 0.944 := by
  have h := Omh2_pos v
  have : 0 < (458 * c.Omh2) ^ (-0.708 : ℝ) := by positivity
  unfold Cosmo.betaCB1
  rw [div_lt_iff₀ (by positivity)]; nlinarith
theorem betaC_pos {c : Cosmo} (v : c.Valid) : 0 < c.betaC := by
  have := betaCB1_pos v
  have : 0 < 1 - c.fBaryon := by linarith [fB_lt v]
  unfold Cosmo.betaC
  have : 0 < c.betaCB1 * (1 - c.fBaryon) ^ c.betaCB2 := by positivity
  have e : 1 + c.betaCB1 * (1 - c.fBaryon) ^ c.betaCB2 - 1 = c.betaCB1 * (1 - c.fBaryon) ^ c.betaCB2 := by ring
  rw [e]; positivity

theorem lnBeta_ge {q b : ℝ} (hq : 0 ≤ q) (hb : 0 ≤ b) : 1 ≤ lnBeta q b := by
  unfold lnBeta
  have : exp 1 ≤ exp 1 + 1.8 * b * q := by
    have : 0 ≤ 1.8 * b * q := by positivity
    linarith
  calc (1 : ℝ) = log (exp 1) := (log_exp 1).symm
    _ ≤ _ := log_le_log (exp_pos 1) this

theorem cAlpha_pos {q a : ℝ} (hq : 0 ≤ q) (ha : 0 < a) : 0 < cAlpha q a := by
  unfold cAlpha; positivity

theorem frac_pos {q a b : ℝ} (ha : 0 < a) (hb : 0 ≤ b) : 0 < frac q a b := by
  unfold frac; positivity

theorem frac_le {q a b : ℝ} (ha : 0 < a) (hb : 0 ≤ b) : frac q a b ≤ 1 := by
  unfold frac
  have : 0 ≤ b * q ^ 2 := by positivity
  rw [div_le_one (by linarith)]; linarith

theorem frac_lt {q a b : ℝ} (hq : 0 < q) (ha : 0 < a) (hb : 0 < b) : frac q a b < 1 := by
  unfold frac
  have : 0 < b * q ^ 2 := by positivity
  rw [div_lt_one (by linarith)]; linarith

theorem frac_lt_frac {q a a' b : ℝ} (hq : 0 < q) (ha : 0 < a) (h : a < a') (hb : 0 < b) :
    frac q a b < frac q a' b := by
  unfold frac
  have h0 : 0 < b * q ^ 2 := by positivity
  rw [div_lt_div_iff₀ (by linarith) (by linarith)]
  nlinarith

theorem sinc_eq : sinc = Real.sinc := by
  funext x; simp [sinc, Real.sinc]

theorem sinc_abs_le (x : ℝ) : |sinc x| ≤ 1 := by rw [sinc_eq]; exact Real.abs_sinc_le_one x

theorem sinc_tendsto : Tendsto sinc (𝓝 0) (𝓝 1) := by
  have := Real.continuous_sinc.tendsto 0
  rwa [sinc_eq, ← Real.sinc_zero]

end NBK.Ehu
