import Verif.Zel.Model
import Mathlib.MeasureTheory.Integral.IntervalIntegral.IntegrationByParts
import Mathlib.Analysis.SpecialFunctions.Integrals.Basic

/-! # The spherical Bessel functions of the model: Poisson's integral, bounds -/
set_option linter.unusedSimpArgs false
namespace NBK.Zel
open Real intervalIntegral

/-- The integral in Poisson's formula. -/
noncomputable def poisson (n : ℕ) (x : ℝ) : ℝ := ∫ t in (-1 : ℝ)..1, cos (x * t) * (1 - t ^ 2) ^ n

theorem parts_cos (x : ℝ) (u u' : ℝ → ℝ) (hu : ∀ t, HasDerivAt u (u' t) t) (hc : Continuous u') :
    ∫ t in (-1 : ℝ)..1, (x * cos (x * t)) * u t = sin x * u 1 + sin x * u (-1) - ∫ t in (-1 : ℝ)..1, sin (x * t) * u' t := by
  have hs : ∀ t, HasDerivAt (fun t => sin (x * t)) (x * cos (x * t)) t := by
    intro t
    have := ((hasDerivAt_id t).const_mul x).sin
    simp only [id, mul_one] at this
    rwa [mul_comm] at this
  have := integral_deriv_mul_eq_sub (a := -1) (b := 1) (u := fun t => sin (x * t)) (v := u) (u' := fun t => x * cos (x * t)) (v' := u')
    (fun t _ => hs t) (fun t _ => hu t) (by apply Continuous.intervalIntegrable; fun_prop) (hc.intervalIntegrable _ _)
  have cu : Continuous u := continuous_iff_continuousAt.2 fun t => (hu t).continuousAt
  rw [integral_add (by apply Continuous.intervalIntegrable; fun_prop) (by apply Continuous.intervalIntegrable; fun_prop)] at this
  simp only [mul_one, mul_neg, sin_neg] at this
  linarith

theorem parts_sin (x : ℝ) (u u' : ℝ → ℝ) (hu : ∀ t, HasDerivAt u (u' t) t) (hc : Continuous u') :
    ∫ t in (-1 : ℝ)..1, (x * sin (x * t)) * u t = -cos x * u 1 + cos x * u (-1) + ∫ t in (-1 : ℝ)..1, cos (x * t) * u' t := by
  have hs : ∀ t, HasDerivAt (fun t => -cos (x * t)) (x * sin (x * t)) t := by
    intro t
    have := ((hasDerivAt_id t).const_mul x).cos.neg
    simp only [id, mul_one] at this
    refine this.congr_deriv ?_; ring
  have := integral_deriv_mul_eq_sub (a := -1) (b := 1) (u := fun t => -cos (x * t)) (v := u) (u' := fun t => x * sin (x * t)) (v' := u')
    (fun t _ => hs t) (fun t _ => hu t) (by apply Continuous.intervalIntegrable; fun_prop) (hc.intervalIntegrable _ _)
  have cu : Continuous u := continuous_iff_continuousAt.2 fun t => (hu t).continuousAt
  rw [integral_add (by apply Continuous.intervalIntegrable; fun_prop) (by apply Continuous.intervalIntegrable; fun_prop)] at this
  simp only [mul_one, mul_neg, cos_neg, neg_mul, integral_neg] at this ⊢
  linarith

theorem poisson_zero (x : ℝ) : x * poisson 0 x = 2 * sin x := by
  have := parts_cos x (fun _ => 1) (fun _ => 0) (fun t => hasDerivAt_const t 1) continuous_const
  simp only [mul_one, mul_zero, integral_zero, sub_zero, integral_const_mul] at this
  unfold poisson
  simp only [pow_zero, mul_one]
  rw [this]; ring

theorem w_deriv (n : ℕ) (t : ℝ) : HasDerivAt (fun t : ℝ => (1 - t ^ 2) ^ (n + 1)) (-(2 * (n + 1) * (t * (1 - t ^ 2) ^ n))) t := by
  have h := ((hasDerivAt_pow 2 t).const_sub 1).pow (n + 1)
  refine h.congr_deriv ?_
  push_cast
  ring

theorem poisson_first (n : ℕ) (x : ℝ) : x * poisson (n + 1) x = 2 * (n + 1) * ∫ t in (-1 : ℝ)..1, sin (x * t) * (t * (1 - t ^ 2) ^ n) := by
  have := parts_cos x _ _ (w_deriv n) (by fun_prop)
  unfold poisson
  rw [← integral_const_mul]
  simp only [← mul_assoc] at this ⊢
  rw [this, ← integral_const_mul]
  simp only [one_pow, sub_self, even_two, Even.neg_pow, ne_eq, Nat.succ_ne_zero, not_false_eq_true, zero_pow, mul_zero, add_zero, zero_sub, ← integral_neg]
  refine integral_congr fun t _ => ?_
  ring

theorem poisson_one (x : ℝ) : x ^ 2 * poisson 1 x = 2 * poisson 0 x - 4 * cos x := by
  have h := poisson_first 0 x
  have := parts_sin x (fun t => t) (fun _ => 1) (fun t => hasDerivAt_id t) continuous_const
  have e : x ^ 2 * poisson 1 x = x * (x * poisson (0 + 1) x) := by simp only [zero_add]; ring
  rw [e, h]
  simp only [pow_zero, mul_one] at this ⊢
  have e2 : x * ((2 * ((0 : ℕ) + 1 : ℝ)) * ∫ t in (-1 : ℝ)..1, sin (x * t) * t) = 2 * ∫ t in (-1 : ℝ)..1, x * sin (x * t) * t := by
    rw [← integral_const_mul, ← integral_const_mul, ← integral_const_mul]
    refine integral_congr fun t _ => ?_
    push_cast; ring
  rw [e2, this]
  unfold poisson
  simp only [pow_zero, mul_one]
  ring

theorem poisson_rec (n : ℕ) (x : ℝ) :
    x ^ 2 * poisson (n + 2) x = 2 * (n + 2) * ((2 * n + 3) * poisson (n + 1) x - 2 * (n + 1) * poisson n x) := by
  have h := poisson_first (n + 1) x
  have hd : ∀ t : ℝ, HasDerivAt (fun t : ℝ => t * (1 - t ^ 2) ^ (n + 1)) ((2 * n + 3) * (1 - t ^ 2) ^ (n + 1) - 2 * (n + 1) * (1 - t ^ 2) ^ n) t := by
    intro t
    refine ((hasDerivAt_id t).mul (w_deriv n t)).congr_deriv ?_
    simp only [id]
    ring
  have := parts_sin x _ _ hd (by fun_prop)
  have e : x ^ 2 * poisson (n + 2) x = x * (x * poisson (n + 1 + 1) x) := by ring_nf
  rw [e, h]
  have e2 : x * ((2 * (((n + 1 : ℕ) : ℝ) + 1)) * ∫ t in (-1 : ℝ)..1, sin (x * t) * (t * (1 - t ^ 2) ^ (n + 1)))
      = 2 * (n + 2) * ∫ t in (-1 : ℝ)..1, x * sin (x * t) * (t * (1 - t ^ 2) ^ (n + 1)) := by
    rw [← integral_const_mul, ← integral_const_mul, ← integral_const_mul]
    refine integral_congr fun t _ => ?_
    push_cast; ring
  rw [e2, this]
  unfold poisson
  rw [← integral_const_mul, ← integral_const_mul, ← integral_sub (by apply Continuous.intervalIntegrable; fun_prop) (by apply Continuous.intervalIntegrable; fun_prop)]
  simp only [one_pow, sub_self, even_two, Even.neg_pow, ne_eq, Nat.succ_ne_zero, not_false_eq_true, zero_pow, mul_zero, add_zero, zero_add]
  congr 1
  refine integral_congr fun t _ => ?_
  ring

/-- The recurrence gives Poisson's integral: `j_n(x) = x^n / (2^(n+1) n!) ∫ cos(xt) (1-t^2)^n dt`. -/
theorem sph_poisson (n : ℕ) (x : ℝ) (hx : x ≠ 0) : sph n x = x ^ n / (2 ^ (n + 1) * (n.factorial : ℝ)) * poisson n x := by
  induction n using Nat.twoStepInduction with
  | zero =>
    have := poisson_zero x
    have e : sph 0 x = sin x / x := rfl
    rw [e, div_eq_iff hx]
    simp only [pow_zero, zero_add, pow_one, Nat.factorial_zero, Nat.cast_one, mul_one]
    linarith
  | one =>
    have h1 := poisson_one x
    have h0 := poisson_zero x
    have e : sph 1 x = sin x / x ^ 2 - cos x / x := rfl
    rw [e]
    simp only [pow_one, Nat.factorial_one, Nat.cast_one, mul_one]
    have hs : sin x = x * poisson 0 x / 2 := by linarith
    have hc : cos x = (2 * poisson 0 x - x ^ 2 * poisson 1 x) / 4 := by linarith
    rw [hs, hc]
    field_simp
    ring
  | more n ih1 ih2 =>
    have e : sph (n + 2) x = (2 * n + 3) / x * sph (n + 1) x - sph n x := rfl
    have h := poisson_rec n x
    rw [e, ih1, ih2, Nat.factorial_succ (n + 1), Nat.factorial_succ n]
    have hf : ((n.factorial : ℕ) : ℝ) ≠ 0 := by exact_mod_cast n.factorial_ne_zero
    have h2 : poisson (n + 2) x = 2 * (n + 2) * ((2 * n + 3) * poisson (n + 1) x - 2 * (n + 1) * poisson n x) / x ^ 2 := by
      rw [eq_div_iff (pow_ne_zero 2 hx), ← h]; ring
    have n1 : (n + 1 : ℝ) ≠ 0 := by positivity
    have n2 : (n + 2 : ℝ) ≠ 0 := by positivity
    rw [h2]
    push_cast
    field_simp
    ring

/-- The value at 0 that makes `j_1(x)/x` continuous is 1/3, and the error is at most `x^2/4`. -/
theorem sph_one_div (x : ℝ) (hx : x ≠ 0) : sph 1 x / x = poisson 1 x / 4 := by
  rw [sph_poisson 1 x hx]
  simp only [pow_one, Nat.factorial_one, Nat.cast_one, mul_one]
  field_simp
  ring

theorem poisson_at_zero_one : poisson 1 0 = 4 / 3 := by
  unfold poisson
  simp only [zero_mul, cos_zero, one_mul, pow_one]
  rw [integral_sub (by simp) (by apply Continuous.intervalIntegrable; fun_prop)]
  simp only [integral_const, integral_pow]
  norm_num

theorem poisson_abs_le (n : ℕ) (x : ℝ) : |poisson n x| ≤ poisson n 0 := by
  unfold poisson
  refine (abs_integral_le_integral_abs (by norm_num)).trans ?_
  refine integral_mono_on (by norm_num) (by apply Continuous.intervalIntegrable; fun_prop) (by apply Continuous.intervalIntegrable; fun_prop) fun t ht => ?_
  have : 0 ≤ (1 - t ^ 2) ^ n := pow_nonneg (by nlinarith [ht.1, ht.2]) n
  rw [abs_mul, abs_of_nonneg this]
  simp only [zero_mul, cos_zero]
  exact mul_le_mul_of_nonneg_right (abs_cos_le_one _) this

theorem sph_one_le (x : ℝ) (hx : x ≠ 0) : |sph 1 x / x| ≤ 1 / 3 := by
  rw [sph_one_div x hx, abs_div]
  have := poisson_abs_le 1 x
  rw [poisson_at_zero_one] at this
  rw [abs_of_pos (show (0 : ℝ) < 4 by norm_num)]
  linarith

theorem poisson_continuous (n : ℕ) : Continuous (poisson n) := by
  unfold poisson
  exact intervalIntegral.continuous_parametric_intervalIntegral_of_continuous' (by fun_prop) _ _

theorem poisson_near (x : ℝ) : 4 / 3 - x ^ 2 ≤ poisson 1 x := by
  rw [← poisson_at_zero_one]
  unfold poisson
  have e : x ^ 2 = ∫ t in (-1 : ℝ)..1, x ^ 2 / 2 := by rw [integral_const]; simp; ring
  rw [e, ← integral_sub (by apply Continuous.intervalIntegrable; fun_prop) (by simp)]
  refine integral_mono_on (by norm_num) (by apply Continuous.intervalIntegrable; fun_prop) (by apply Continuous.intervalIntegrable; fun_prop) fun t ht => ?_
  have h1 : 0 ≤ 1 - t ^ 2 := by nlinarith [ht.1, ht.2]
  have h2 := one_sub_sq_div_two_le_cos (x := x * t)
  simp only [zero_mul, cos_zero, pow_one, one_mul]
  have h3 : (x * t) ^ 2 ≤ x ^ 2 := by nlinarith [sq_nonneg x, sq_nonneg t, mul_nonneg (sq_nonneg x) h1]
  nlinarith [sq_nonneg t, mul_nonneg (sq_nonneg x) (sq_nonneg t)]

end NBK.Zel
