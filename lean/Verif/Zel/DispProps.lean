import Verif.Zel.Model
import Mathlib.MeasureTheory.Function.JacobianOneDim
import Mathlib.MeasureTheory.Constructions.HaarToSphere
import Mathlib.MeasureTheory.Measure.Lebesgue.VolumeOfBalls
import Mathlib.Analysis.SpecialFunctions.Integrals.Basic

/-! # The velocity dispersion is the integral of the docstring over a shell of wave vectors -/
set_option linter.unusedSimpArgs false
namespace NBK.Zel
open Real MeasureTheory

/-- The integral over the logarithm is the integral over the wavenumber, for any function and order of the bounds. -/
theorem log_subst (P : ℝ → ℝ) (a b : ℝ) (ha : 0 < a) (hb : 0 < b) :
    ∫ x in log a..log b, exp x * P (exp x) = ∫ q in a..b, P q := by
  have key : ∀ a b : ℝ, 0 < a → a ≤ b → ∫ x in log a..log b, exp x * P (exp x) = ∫ q in a..b, P q := by
    intro a b ha hab
    rw [intervalIntegral.integral_of_le hab, intervalIntegral.integral_of_le (log_le_log ha hab)]
    have e : exp '' Set.Ioc (log a) (log b) = Set.Ioc a b := by
      ext y
      constructor
      · rintro ⟨x, ⟨h1, h2⟩, rfl⟩
        exact ⟨(log_lt_iff_lt_exp ha).1 h1, (le_log_iff_exp_le (ha.trans_le hab)).1 h2⟩
      · rintro ⟨h1, h2⟩
        exact ⟨log y, ⟨log_lt_log ha h1, log_le_log (ha.trans h1) h2⟩, exp_log (ha.trans h1)⟩
    rw [← e, integral_image_eq_integral_abs_deriv_smul measurableSet_Ioc (fun x _ => (hasDerivAt_exp x).hasDerivWithinAt) exp_injective.injOn]
    simp only [abs_exp, smul_eq_mul]
  rcases le_total a b with h | h
  · exact key a b ha h
  · rw [intervalIntegral.integral_symm, key b a hb h, intervalIntegral.integral_symm b a]

/-- The square of the result is the integral, whatever its sign. -/
theorem dispersion_sq (P : ℝ → ℝ) (a b : ℝ) (ha : 0 < a) (hb : 0 < b) :
    velocityDispersion P a b ^ 2 = (((∫ q in a..b, P q) / (6 * π ^ 2) : ℝ) : ℂ) := by
  unfold velocityDispersion
  dsimp only
  rw [log_subst P a b ha hb, ← Complex.cpow_nat_mul]
  norm_num

/-- With bounds in order and a power that is nowhere negative the result is a real number, the root of the integral over the wavenumber. -/
theorem dispersion_real (P : ℝ → ℝ) (a b : ℝ) (ha : 0 < a) (hab : a ≤ b) (hP : ∀ q, a ≤ q → q ≤ b → 0 ≤ P q) :
    velocityDispersion P a b = ((sqrt ((∫ q in a..b, P q) / (6 * π ^ 2)) : ℝ) : ℂ) := by
  have h0 : 0 ≤ (∫ q in a..b, P q) / (6 * π ^ 2) :=
    div_nonneg (intervalIntegral.integral_nonneg hab fun q hq => hP q hq.1 hq.2) (by positivity)
  unfold velocityDispersion
  dsimp only
  rw [log_subst P a b ha (ha.trans_le hab), sqrt_eq_rpow, Complex.ofReal_cpow h0]
  norm_num

/-- With the bounds exchanged the result is not a number of type float: it is the imaginary unit times the dispersion. -/
theorem dispersion_swapped (P : ℝ → ℝ) (a b : ℝ) (ha : 0 < a) (hab : a ≤ b) (hP : ∀ q, a ≤ q → q ≤ b → 0 ≤ P q) (hpos : 0 < ∫ q in a..b, P q) :
    velocityDispersion P b a = Complex.I * velocityDispersion P a b := by
  rw [dispersion_real P a b ha hab hP]
  have h0 : 0 < (∫ q in a..b, P q) / (6 * π ^ 2) := div_pos hpos (by positivity)
  unfold velocityDispersion
  dsimp only
  rw [log_subst P b a (ha.trans_le hab) ha, intervalIntegral.integral_symm, neg_div]
  rw [show (0.5 : ℂ) = ((0.5 : ℝ) : ℂ) by norm_num, Complex.ofReal_cpow_of_nonpos (by linarith)]
  rw [← Complex.ofReal_neg, neg_neg, ← Complex.ofReal_cpow h0.le, sqrt_eq_rpow]
  rw [show (π : ℂ) * Complex.I * ((0.5 : ℝ) : ℂ) = π / 2 * Complex.I by push_cast; ring, Complex.exp_pi_div_two_mul_I]
  norm_num [mul_comm]

/-- The docstring: a third of the integral of `P(q)/q^2` over the wave vectors with length between the bounds, divided by `(2 pi)^3`. -/
theorem dispersion_shell (P : ℝ → ℝ) (a b : ℝ) (ha : 0 < a) (hab : a ≤ b) (hP : ∀ q, a ≤ q → q ≤ b → 0 ≤ P q) :
    velocityDispersion P a b
      = ((sqrt (1 / 3 * ∫ q in {q : EuclideanSpace ℝ (Fin 3) | a < ‖q‖ ∧ ‖q‖ ≤ b}, P ‖q‖ / ‖q‖ ^ 2 / (2 * π) ^ 3) : ℝ) : ℂ) := by
  rw [dispersion_real P a b ha hab hP]
  congr 2
  have hm : MeasurableSet {q : EuclideanSpace ℝ (Fin 3) | a < ‖q‖ ∧ ‖q‖ ≤ b} := by
    apply MeasurableSet.inter
    · exact measurableSet_lt measurable_const measurable_norm
    · exact measurableSet_le measurable_norm measurable_const
  rw [← integral_indicator hm]
  have e : Set.indicator {q : EuclideanSpace ℝ (Fin 3) | a < ‖q‖ ∧ ‖q‖ ≤ b} (fun q => P ‖q‖ / ‖q‖ ^ 2 / (2 * π) ^ 3)
      = fun q => Set.indicator (Set.Ioc a b) (fun y => P y / y ^ 2 / (2 * π) ^ 3) ‖q‖ := by
    funext q
    by_cases h : a < ‖q‖ ∧ ‖q‖ ≤ b
    · rw [Set.indicator_of_mem (show q ∈ {q | a < ‖q‖ ∧ ‖q‖ ≤ b} from h), Set.indicator_of_mem (show ‖q‖ ∈ Set.Ioc a b from h)]
    · rw [Set.indicator_of_notMem (show q ∉ {q | a < ‖q‖ ∧ ‖q‖ ≤ b} from h), Set.indicator_of_notMem (show ‖q‖ ∉ Set.Ioc a b from h)]
  rw [e, integral_fun_norm_addHaar]
  have e2 : (fun y : ℝ => y ^ (Module.finrank ℝ (EuclideanSpace ℝ (Fin 3)) - 1) • Set.indicator (Set.Ioc a b) (fun y => P y / y ^ 2 / (2 * π) ^ 3) y)
      = Set.indicator (Set.Ioc a b) (fun y => P y / (2 * π) ^ 3) := by
    funext y
    by_cases h : y ∈ Set.Ioc a b
    · rw [Set.indicator_of_mem h, Set.indicator_of_mem h]
      have : y ≠ 0 := (ha.trans h.1).ne'
      simp only [finrank_euclideanSpace, Fintype.card_fin, smul_eq_mul]
      field_simp
      exact mul_comm _ _
    · rw [Set.indicator_of_notMem h, Set.indicator_of_notMem h, smul_zero]
  rw [e2, setIntegral_indicator measurableSet_Ioc, Set.inter_eq_right.2 (show Set.Ioc a b ⊆ Set.Ioi 0 from fun y hy => ha.trans hy.1), ← intervalIntegral.integral_of_le hab,
    intervalIntegral.integral_div]
  simp only [finrank_euclideanSpace, Fintype.card_fin, Measure.real, EuclideanSpace.volume_ball_fin_three, ENNReal.ofReal_one, one_pow, one_mul, smul_eq_mul, nsmul_eq_mul]
  rw [ENNReal.toReal_ofReal (by positivity)]
  have := pi_pos
  push_cast
  field_simp
  ring

/-- Multiplication of the power (a new `sigma8`) multiplies the dispersion by the root. -/
theorem dispersion_scale (P : ℝ → ℝ) (c a b : ℝ) (hc : 0 ≤ c) (ha : 0 < a) (hab : a ≤ b) (hP : ∀ q, a ≤ q → q ≤ b → 0 ≤ P q) :
    velocityDispersion (fun q => c * P q) a b = (sqrt c : ℝ) * velocityDispersion P a b := by
  rw [dispersion_real P a b ha hab hP, dispersion_real _ a b ha hab fun q h1 h2 => mul_nonneg hc (hP q h1 h2), intervalIntegral.integral_const_mul, mul_div_assoc,
    sqrt_mul hc]
  push_cast; rfl

/-- A wider range gives a dispersion that is not smaller: squares add. -/
theorem dispersion_split (P : ℝ → ℝ) (a b c : ℝ) (ha : 0 < a) (hb : 0 < b) (hc : 0 < c)
    (h1 : IntervalIntegrable P volume a b) (h2 : IntervalIntegrable P volume b c) :
    velocityDispersion P a c ^ 2 = velocityDispersion P a b ^ 2 + velocityDispersion P b c ^ 2 := by
  rw [dispersion_sq P a c ha hc, dispersion_sq P a b ha hb, dispersion_sq P b c hb hc, ← intervalIntegral.integral_add_adjacent_intervals h1 h2, add_div]
  push_cast; rfl

/-- A case: the power `P(k) = k` between 1 and 3 has the dispersion `sqrt(4 / (6 pi^2))`, and `i` times it with the bounds exchanged. -/
example : velocityDispersion (fun q => q) 1 3 = ((sqrt (4 / (6 * π ^ 2)) : ℝ) : ℂ) := by
  rw [dispersion_real _ 1 3 (by norm_num) (by norm_num) (fun q h _ => by linarith)]
  simp only [integral_id]
  norm_num

example : velocityDispersion (fun q => q) 3 1 = Complex.I * velocityDispersion (fun q => q) 1 3 :=
  dispersion_swapped _ 1 3 (by norm_num) (by norm_num) (fun q h _ => by linarith) (by simp only [integral_id]; norm_num)

end NBK.Zel
