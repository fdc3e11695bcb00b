import Verif.Filters.Model
import Mathlib.Analysis.SpecialFunctions.Trigonometric.Deriv
import Mathlib.Analysis.SpecialFunctions.Trigonometric.Bounds
import Mathlib.MeasureTheory.Integral.IntervalIntegral.FundThmCalculus
import Mathlib.Analysis.SpecialFunctions.Integrals.Basic
import Mathlib.Tactic.Linarith
import Mathlib.Tactic.Ring
import Mathlib.Tactic.FieldSimp
import Mathlib.Tactic.Positivity

set_option linter.unusedSimpArgs false

/-! C97: filters. -/
noncomputable section
namespace NBK.Filters
open Real

theorem norm2_nonneg (k : List ℝ) : 0 ≤ norm2 k := by
  unfold norm2
  refine List.sum_nonneg ?_
  intro x hx
  obtain ⟨y, _, rfl⟩ := List.mem_map.mp hx
  exact sq_nonneg y

/-- C97: the mean mode is not changed. -/
theorem mean_kept (r : ℝ) (k : List ℝ) (h : ∀ x ∈ k, x = 0) (v : ℂ) :
    tophatFilter r k v = some v ∧ gaussianFilter r k v = v := by
  have h0 : norm2 k = 0 := by
    unfold norm2
    refine List.sum_eq_zero ?_
    intro x hx
    obtain ⟨y, hy, rfl⟩ := List.mem_map.mp hx
    rw [h y hy]; norm_num
  constructor
  · simp [tophatFilter, tophat, h0]
  · simp [gaussianFilter, gaussian, h0]

/-- C97: the Gaussian filter multiplies by a number in (0, 1]: no mode is amplified. -/
theorem gaussian_range (r : ℝ) (k : List ℝ) : 0 < gaussian r k ∧ gaussian r k ≤ 1 := by
  refine ⟨exp_pos _, ?_⟩
  unfold gaussian
  rw [Real.exp_le_one_iff]
  have := mul_nonneg (norm2_nonneg k) (sq_nonneg r)
  nlinarith

/-- C97: smaller scales are damped more. -/
theorem gaussian_anti (r : ℝ) (k k' : List ℝ) (h : norm2 k ≤ norm2 k') : gaussian r k' ≤ gaussian r k := by
  unfold gaussian
  rw [Real.exp_le_exp]
  have := mul_le_mul_of_nonneg_right h (sq_nonneg r)
  nlinarith

/-- C97: two Gaussian filters are one, with the radii added in quadrature. -/
theorem gaussian_twice (a b c : ℝ) (h : c ^ 2 = a ^ 2 + b ^ 2) (k : List ℝ) (v : ℂ) :
    gaussianFilter a k (gaussianFilter b k v) = gaussianFilter c k v := by
  unfold gaussianFilter gaussian
  rw [← mul_assoc, ← Complex.ofReal_mul, ← Real.exp_add, h]
  congr 3
  ring

/-- C97: the Gaussian filter with radius 0 changes nothing. -/
theorem gaussian_zero (k : List ℝ) (v : ℂ) : gaussianFilter 0 k v = v := by simp [gaussianFilter, gaussian]

/-- C97: the filters map real fields to real fields: the conjugate mode gets the conjugate value. -/
theorem filters_conj (r : ℝ) (k : List ℝ) (v : ℂ) :
    gaussianFilter r (k.map fun x => -x) (starRingEnd ℂ v) = starRingEnd ℂ (gaussianFilter r k v) ∧
    tophatFilter r (k.map fun x => -x) (starRingEnd ℂ v) = (tophatFilter r k v).map (starRingEnd ℂ) := by
  have hk : norm2 (k.map fun x => -x) = norm2 k := by
    unfold norm2
    rw [List.map_map]
    congr 1
    refine List.map_congr_left ?_
    intro x _
    simp
  constructor
  · unfold gaussianFilter gaussian
    rw [hk, map_mul, Complex.conj_ofReal]
  · have ht : tophat r (k.map fun x => -x) = tophat r k := by
      unfold tophat
      rw [hk]
    unfold tophatFilter
    rw [ht]
    cases tophat r k with
    | none => rfl
    | some w => simp only [Option.map_some, map_mul, Complex.conj_ofReal]

/-- The derivative of sin(ks) - ks cos(ks). -/
theorem deriv_ball (k : ℝ) (hk : k ≠ 0) (s : ℝ) :
    HasDerivAt (fun s => (sin (k * s) - k * s * cos (k * s)) / k ^ 3) (s * sin (k * s) / k) s := by
  have h1 : HasDerivAt (fun s : ℝ => k * s) k s := by simpa using (hasDerivAt_id s).const_mul k
  have h2 := h1.sin
  have h3 := h1.cos
  refine ((h2.sub (h1.mul h3)).div_const (k ^ 3)).congr_deriv ?_
  field_simp
  ring

theorem ball_integral (k r : ℝ) (hk : k ≠ 0) :
    ∫ s in (0 : ℝ)..r, s * sin (k * s) / k = (sin (k * r) - k * r * cos (k * r)) / k ^ 3 := by
  rw [intervalIntegral.integral_eq_sub_of_hasDerivAt (fun s _ => deriv_ball k hk s)]
  · simp
  · exact (Continuous.intervalIntegrable (by fun_prop) _ _)

/-- C97: the top hat is the mean over a ball of radius r: its factor is the mean of the plane wave over the ball, which is
the integral over shells of `4 π s²` times `sin(ks)/(ks)`, divided by the volume `4/3 π r³`. -/
theorem tophat_ball (r : ℝ) (hr : 0 < r) (k : List ℝ) (hk : norm2 k ≠ 0) :
    tophat r k = some ((∫ s in (0 : ℝ)..r, 4 * π * s ^ 2 * (sin (sqrt (norm2 k) * s) / (sqrt (norm2 k) * s))) / (4 / 3 * π * r ^ 3)) := by
  have hpos : 0 < norm2 k := lt_of_le_of_ne (norm2_nonneg k) (Ne.symm hk)
  have hq : 0 < sqrt (norm2 k) := sqrt_pos.mpr hpos
  unfold tophat
  simp only
  generalize sqrt (norm2 k) = q at hq
  rw [if_neg hq.ne', if_neg (by positivity)]
  congr 1
  have e : ∀ s : ℝ, 4 * π * s ^ 2 * (sin (q * s) / (q * s)) = 4 * π * (s * sin (q * s) / q) := by
    intro s
    by_cases hs : s = 0
    · rw [hs]; simp
    · have := hq.ne'
      field_simp
  simp only [e]
  rw [intervalIntegral.integral_const_mul, ball_integral q r hq.ne']
  have := hq.ne'
  have := pi_ne_zero
  field_simp

theorem ball_bound (x : ℝ) (hx : 0 ≤ x) : |sin x - x * cos x| ≤ x ^ 3 / 3 := by
  have h := ball_integral 1 x one_ne_zero
  simp only [one_mul, one_pow, div_one] at h
  rw [← h]
  have h2 : ∫ s in (0 : ℝ)..x, s ^ 2 = x ^ 3 / 3 := by simp [integral_pow]; norm_num
  rw [← h2, ← Real.norm_eq_abs]
  refine intervalIntegral.norm_integral_le_of_norm_le hx ?_ ?_
  · refine Filter.Eventually.of_forall ?_
    intro s hs
    rw [Real.norm_eq_abs, abs_mul, abs_of_pos hs.1]
    have := abs_sin_le_abs (x := s)
    rw [abs_of_pos hs.1] at this
    nlinarith [hs.1]
  · exact (Continuous.intervalIntegrable (by fun_prop) _ _)

/-- C97: the top hat never amplifies a mode. -/
theorem tophat_range (r : ℝ) (k : List ℝ) (w : ℝ) (h : tophat r k = some w) : |w| ≤ 1 := by
  unfold tophat at h
  simp only at h
  generalize sqrt (norm2 k) = q at h
  split at h
  · cases h; simp
  · split at h
    · cases h
    · rename_i h1 h2
      simp only [Option.some.injEq] at h
      subst h
      generalize q * r = x at h2
      have key : ∀ y : ℝ, 0 < y → |3 * (sin y / y ^ 3 - cos y / y ^ 2)| ≤ 1 := by
        intro y hy
        have hb := ball_bound y hy.le
        have e : 3 * (sin y / y ^ 3 - cos y / y ^ 2) = 3 * (sin y - y * cos y) / y ^ 3 := by
          have := hy.ne'
          field_simp
        rw [e, abs_div, abs_mul, abs_of_pos (by positivity : (0 : ℝ) < y ^ 3), div_le_one (by positivity), abs_of_pos (by norm_num : (0 : ℝ) < 3)]
        linarith
      rcases lt_or_gt_of_ne h2 with hx | hx
      · have := key (-x) (by linarith)
        rw [sin_neg, cos_neg] at this
        have e : sin x / x ^ 3 - cos x / x ^ 2 = -sin x / (-x) ^ 3 - cos x / (-x) ^ 2 := by
          have : x ≠ 0 := hx.ne
          field_simp
        rw [e]; exact this
      · exact key x hx

/-- C97 fails for the top hat of radius 0, which should change nothing: every mode but the mean is nan. -/
theorem tophat_zero (k : List ℝ) (hk : norm2 k ≠ 0) (v : ℂ) : tophatFilter 0 k v = none := by
  have hpos : 0 < norm2 k := lt_of_le_of_ne (norm2_nonneg k) (Ne.symm hk)
  have hq : 0 < sqrt (norm2 k) := sqrt_pos.mpr hpos
  simp [tophatFilter, tophat, hq.ne']

theorem ball_near (x : ℝ) (h0 : 0 ≤ x) : |sin x - x * cos x - x ^ 3 / 3| ≤ x ^ 5 / 30 := by
  have h := ball_integral 1 x one_ne_zero
  simp only [one_mul, one_pow, div_one] at h
  have h2 : ∫ s in (0 : ℝ)..x, s ^ 2 = x ^ 3 / 3 := by simp [integral_pow]; norm_num
  have h4 : ∫ s in (0 : ℝ)..x, s ^ 4 / 6 = x ^ 5 / 30 := by
    rw [intervalIntegral.integral_div]
    simp [integral_pow]; ring
  rw [← h, ← h2, ← h4, ← intervalIntegral.integral_sub (Continuous.intervalIntegrable (by fun_prop) _ _)
    (Continuous.intervalIntegrable (by fun_prop) _ _), ← Real.norm_eq_abs]
  refine intervalIntegral.norm_integral_le_of_norm_le h0 ?_ ?_
  · refine Filter.Eventually.of_forall ?_
    intro s hs
    have a := sin_lt hs.1
    have b := sin_gt_sub_cube hs.1
    rw [Real.norm_eq_abs, abs_le]
    have hp := hs.1
    constructor
    · have := mul_lt_mul_of_pos_left b hp
      nlinarith
    · have := mul_lt_mul_of_pos_left a hp
      have : 0 < s ^ 4 := by positivity
      nlinarith
  · exact (Continuous.intervalIntegrable (by fun_prop) _ _)

/-- C97: the value 1 set for the mean mode continues the filter: modes much larger than the radius are not changed. -/
theorem tophat_near (r : ℝ) (k : List ℝ) (hr : 0 < r) (hk : norm2 k ≠ 0) :
    ∃ w, tophat r k = some w ∧ |w - 1| ≤ (sqrt (norm2 k) * r) ^ 2 / 10 := by
  have hpos : 0 < norm2 k := lt_of_le_of_ne (norm2_nonneg k) (Ne.symm hk)
  have hq : 0 < sqrt (norm2 k) := sqrt_pos.mpr hpos
  unfold tophat
  simp only
  generalize sqrt (norm2 k) = q at hq
  have hx : 0 < q * r := by positivity
  rw [if_neg hq.ne', if_neg hx.ne']
  refine ⟨_, rfl, ?_⟩
  generalize q * r = x at hx
  have hb := ball_near x hx.le
  have e : 3 * (sin x / x ^ 3 - cos x / x ^ 2) - 1 = 3 * (sin x - x * cos x - x ^ 3 / 3) / x ^ 3 := by
    have := hx.ne'
    field_simp
  rw [e, abs_div, abs_mul, abs_of_pos (by positivity : (0 : ℝ) < x ^ 3), div_le_iff₀ (by positivity), abs_of_pos (by norm_num : (0 : ℝ) < 3)]
  nlinarith

/-- The theorems are not empty: the mode (3, 4, 0) with a radius of 1/5. -/
theorem example_mode : norm2 [3, 4, 0] ≠ 0 ∧
    tophat (1 / 5) [3, 4, 0] = some (3 * (sin 1 - cos 1)) ∧ gaussian (1 / 5) [3, 4, 0] = exp (-0.5) := by
  have h : norm2 [3, 4, 0] = 5 ^ 2 := by norm_num [norm2]
  have hs : sqrt (norm2 [3, 4, 0]) = 5 := by rw [h]; exact sqrt_sq (by norm_num)
  refine ⟨by rw [h]; norm_num, ?_, ?_⟩
  · unfold tophat
    simp only [hs]
    norm_num
  · unfold gaussian
    rw [h]; norm_num

end NBK.Filters
