import Verif.Comp.Model
import Mathlib.Analysis.SpecialFunctions.Integrals.Basic
import Mathlib.MeasureTheory.Integral.IntervalIntegral.Periodic
import Mathlib.Tactic.LinearCombination
import Mathlib.Tactic.FieldSimp
import Mathlib.Tactic.Ring

/-! # The compensation divides by the transform of the window, or makes the shot noise white -/

set_option linter.unusedSimpArgs false

namespace NBK.Comp
open MeasureTheory

/-! ## Windows -/

/-- Clouds in cells: the weight of a mesh point at a distance (in cells) from the particle. -/
noncomputable def cic (x : ℝ) : ℝ := if |x| < 1 then 1 - |x| else 0

/-- Triangular shaped clouds. -/
noncomputable def tsc (x : ℝ) : ℝ := if |x| < 1 / 2 then 3 / 4 - x ^ 2 else if |x| < 3 / 2 then (3 / 2 - |x|) ^ 2 / 2 else 0

/-- Piecewise cubic spline. -/
noncomputable def pcs (x : ℝ) : ℝ := if |x| < 1 then (4 - 6 * x ^ 2 + 3 * |x| ^ 3) / 6 else if |x| < 2 then (2 - |x|) ^ 3 / 6 else 0

/-- The integral of a cubic times a cosine. -/
theorem integral_cubic_cos (a b c d w s t : ℝ) (hw : w ≠ 0) : ∫ x in s..t, (a + b * x + c * x ^ 2 + d * x ^ 3) * Real.cos (w * x) =
    ((a + b * t + c * t ^ 2 + d * t ^ 3) * Real.sin (w * t) / w + (b + 2 * c * t + 3 * d * t ^ 2) * Real.cos (w * t) / w ^ 2 -
      (2 * c + 6 * d * t) * Real.sin (w * t) / w ^ 3 - 6 * d * Real.cos (w * t) / w ^ 4) -
    ((a + b * s + c * s ^ 2 + d * s ^ 3) * Real.sin (w * s) / w + (b + 2 * c * s + 3 * d * s ^ 2) * Real.cos (w * s) / w ^ 2 -
      (2 * c + 6 * d * s) * Real.sin (w * s) / w ^ 3 - 6 * d * Real.cos (w * s) / w ^ 4) := by
  apply intervalIntegral.integral_eq_sub_of_hasDerivAt (f := fun x => (a + b * x + c * x ^ 2 + d * x ^ 3) * Real.sin (w * x) / w +
    (b + 2 * c * x + 3 * d * x ^ 2) * Real.cos (w * x) / w ^ 2 - (2 * c + 6 * d * x) * Real.sin (w * x) / w ^ 3 - 6 * d * Real.cos (w * x) / w ^ 4)
  · intro x _
    have hid := hasDerivAt_id' x
    have hwx : HasDerivAt (fun x : ℝ => w * x) w x := by simpa using hid.const_mul w
    have hs := hwx.sin
    have hc := hwx.cos
    have h2 : HasDerivAt (fun x : ℝ => x ^ 2) (2 * x) x := by simpa using hasDerivAt_pow 2 x
    have h3 : HasDerivAt (fun x : ℝ => x ^ 3) (3 * x ^ 2) x := by simpa using hasDerivAt_pow 3 x
    have p0 : HasDerivAt (fun x : ℝ => a + b * x + c * x ^ 2 + d * x ^ 3) (b + 2 * c * x + 3 * d * x ^ 2) x :=
      (((hid.const_mul b).const_add a |>.fun_add (h2.const_mul c)).fun_add (h3.const_mul d)).congr_deriv (by ring)
    have p1 : HasDerivAt (fun x : ℝ => b + 2 * c * x + 3 * d * x ^ 2) (2 * c + 6 * d * x) x :=
      (((hid.const_mul (2 * c)).const_add b).fun_add (h2.const_mul (3 * d))).congr_deriv (by ring)
    have p2 : HasDerivAt (fun x : ℝ => 2 * c + 6 * d * x) (6 * d) x := ((hid.const_mul (6 * d)).const_add (2 * c)).congr_deriv (by ring)
    refine (((((p0.fun_mul hs).div_const w).fun_add ((p1.fun_mul hc).div_const (w ^ 2))).fun_sub ((p2.fun_mul hs).div_const (w ^ 3))).fun_sub
      ((hc.const_mul (6 * d)).div_const (w ^ 4))).congr_deriv ?_
    field_simp
    ring
  · apply Continuous.intervalIntegrable
    fun_prop

/-- The integral of a polynomial of degree six. -/
theorem integral_poly (a0 a1 a2 a3 a4 a5 a6 s t : ℝ) :
    ∫ x in s..t, (a0 + a1 * x + a2 * x ^ 2 + a3 * x ^ 3 + a4 * x ^ 4 + a5 * x ^ 5 + a6 * x ^ 6) =
      (a0 * t + a1 * t ^ 2 / 2 + a2 * t ^ 3 / 3 + a3 * t ^ 4 / 4 + a4 * t ^ 5 / 5 + a5 * t ^ 6 / 6 + a6 * t ^ 7 / 7) -
      (a0 * s + a1 * s ^ 2 / 2 + a2 * s ^ 3 / 3 + a3 * s ^ 4 / 4 + a4 * s ^ 5 / 5 + a5 * s ^ 6 / 6 + a6 * s ^ 7 / 7) := by
  apply intervalIntegral.integral_eq_sub_of_hasDerivAt (f := fun t : ℝ =>
    a0 * t + a1 * t ^ 2 / 2 + a2 * t ^ 3 / 3 + a3 * t ^ 4 / 4 + a4 * t ^ 5 / 5 + a5 * t ^ 6 / 6 + a6 * t ^ 7 / 7)
  · intro x _
    have h1 := hasDerivAt_id' x
    have h2 := hasDerivAt_pow 2 x
    have h3 := hasDerivAt_pow 3 x
    have h4 := hasDerivAt_pow 4 x
    have h5 := hasDerivAt_pow 5 x
    have h6 := hasDerivAt_pow 6 x
    have h7 := hasDerivAt_pow 7 x
    refine (((((((h1.const_mul a0).fun_add ((h2.const_mul a1).div_const 2)).fun_add ((h3.const_mul a2).div_const 3)).fun_add
      ((h4.const_mul a3).div_const 4)).fun_add ((h5.const_mul a4).div_const 5)).fun_add ((h6.const_mul a5).div_const 6)).fun_add
      ((h7.const_mul a6).div_const 7)).congr_deriv ?_
    push_cast
    ring
  · apply Continuous.intervalIntegrable
    fun_prop

/-- The windows on the pieces where they are polynomials, closed intervals. -/
theorem cic_eq (x : ℝ) (h0 : 0 ≤ x) (h1 : x ≤ 1) : cic x = 1 - x := by
  unfold cic
  rw [abs_of_nonneg h0]
  split <;> linarith

theorem cic_out (x : ℝ) (h : 1 ≤ x) : cic x = 0 := by
  unfold cic
  rw [abs_of_nonneg (by linarith), if_neg (by linarith)]

theorem tsc_eq1 (x : ℝ) (h0 : 0 ≤ x) (h1 : x ≤ 1 / 2) : tsc x = 3 / 4 - x ^ 2 := by
  unfold tsc
  rw [abs_of_nonneg h0]
  split
  · rfl
  · have : x = 1 / 2 := by linarith
    rw [if_pos (by linarith), this]
    norm_num

theorem tsc_eq2 (x : ℝ) (h0 : 1 / 2 ≤ x) (h1 : x ≤ 3 / 2) : tsc x = (3 / 2 - x) ^ 2 / 2 := by
  unfold tsc
  rw [abs_of_nonneg (by linarith), if_neg (by linarith)]
  split
  · rfl
  · have : x = 3 / 2 := by linarith
    rw [this]
    norm_num

theorem tsc_out (x : ℝ) (h : 3 / 2 ≤ x) : tsc x = 0 := by
  unfold tsc
  rw [abs_of_nonneg (by linarith), if_neg (by linarith), if_neg (by linarith)]

theorem pcs_eq1 (x : ℝ) (h0 : 0 ≤ x) (h1 : x ≤ 1) : pcs x = (4 - 6 * x ^ 2 + 3 * x ^ 3) / 6 := by
  unfold pcs
  rw [abs_of_nonneg h0]
  split
  · rfl
  · have : x = 1 := by linarith
    rw [if_pos (by linarith), this]
    norm_num

theorem pcs_eq2 (x : ℝ) (h0 : 1 ≤ x) (h1 : x ≤ 2) : pcs x = (2 - x) ^ 3 / 6 := by
  unfold pcs
  rw [abs_of_nonneg (by linarith), if_neg (by linarith)]
  split
  · rfl
  · have : x = 2 := by linarith
    rw [this]
    norm_num

theorem pcs_out (x : ℝ) (h : 2 ≤ x) : pcs x = 0 := by
  unfold pcs
  rw [abs_of_nonneg (by linarith), if_neg (by linarith), if_neg (by linarith)]

theorem even_windows (x : ℝ) : cic (-x) = cic x ∧ tsc (-x) = tsc x ∧ pcs (-x) = pcs x := by
  simp [cic, tsc, pcs, abs_neg]

/-! ## Transform of the windows -/

/-- The transform of an even window is twice the cosine integral of one half. -/
theorem even_integral (W : ℝ → ℝ) (hW : ∀ x, W (-x) = W x) (hc : Continuous W) (w : ℝ) :
    ∫ x in (-2 : ℝ)..2, W x * Real.cos (w * x) = 2 * ∫ x in (0 : ℝ)..2, W x * Real.cos (w * x) := by
  have hcont : Continuous fun x : ℝ => W x * Real.cos (w * x) := by fun_prop
  have h1 : ∫ x in (-2 : ℝ)..0, W x * Real.cos (w * x) = ∫ x in (0 : ℝ)..2, W x * Real.cos (w * x) := by
    have h := intervalIntegral.integral_comp_neg (a := 0) (b := 2) (fun x : ℝ => W x * Real.cos (w * x))
    simp only [neg_zero] at h
    rw [← h]
    congr 1
    funext x
    rw [hW, mul_neg, Real.cos_neg]
  rw [← intervalIntegral.integral_add_adjacent_intervals (hcont.intervalIntegrable (-2) 0) (hcont.intervalIntegrable 0 2), h1]
  ring

theorem cic_continuous : Continuous cic := by
  have : cic = fun x => max (1 - |x|) 0 := by
    funext x
    unfold cic
    split
    · rw [max_eq_left (by linarith)]
    · rw [max_eq_right (by linarith)]
  rw [this]
  fun_prop

theorem tsc_continuous : Continuous tsc := by
  have : tsc = fun x => max (3 / 2 - |x|) 0 ^ 2 / 2 - 3 / 2 * max (1 / 2 - |x|) 0 ^ 2 := by
    funext x
    unfold tsc
    have hx : x ^ 2 = |x| ^ 2 := (sq_abs x).symm
    rw [hx]
    split
    · rw [max_eq_left (by linarith), max_eq_left (by linarith)]
      ring
    · split
      · rw [max_eq_left (by linarith), max_eq_right (by linarith)]
        ring
      · rw [max_eq_right (by linarith), max_eq_right (by linarith)]
        ring
  rw [this]
  fun_prop

theorem pcs_continuous : Continuous pcs := by
  have : pcs = fun x => max (2 - |x|) 0 ^ 3 / 6 - 2 / 3 * max (1 - |x|) 0 ^ 3 := by
    funext x
    unfold pcs
    have hx : x ^ 2 = |x| ^ 2 := (sq_abs x).symm
    rw [hx]
    split
    · rw [max_eq_left (by linarith), max_eq_left (by linarith)]
      ring
    · split
      · rw [max_eq_left (by linarith), max_eq_right (by linarith)]
        ring
      · rw [max_eq_right (by linarith), max_eq_right (by linarith)]
        ring
  rw [this]
  fun_prop

theorem sinc_half (w : ℝ) (hw : w ≠ 0) : sinc (1 / 2 * w / Real.pi) = Real.sin (w / 2) / (w / 2) := by
  have hp := Real.pi_ne_zero
  unfold sinc
  rw [if_neg (by positivity)]
  have : Real.pi * (1 / 2 * w / Real.pi) = w / 2 := by field_simp
  rw [this]

theorem divisor_zero (k : Kernel) : divisor k 0 = 1 := by
  cases k <;> simp [divisor, sinc]

/-- Split the half integral at a point. -/
theorem half_split (W : ℝ → ℝ) (hc : Continuous W) (w m n : ℝ) :
    ∫ x in (0 : ℝ)..2, W x * Real.cos (w * x) = (∫ x in (0 : ℝ)..m, W x * Real.cos (w * x)) + (∫ x in m..n, W x * Real.cos (w * x)) +
      ∫ x in n..2, W x * Real.cos (w * x) := by
  have hcont : Continuous fun x : ℝ => W x * Real.cos (w * x) := by fun_prop
  rw [intervalIntegral.integral_add_adjacent_intervals (hcont.intervalIntegrable _ _) (hcont.intervalIntegrable _ _),
    intervalIntegral.integral_add_adjacent_intervals (hcont.intervalIntegrable _ _) (hcont.intervalIntegrable _ _)]

theorem piece (W : ℝ → ℝ) (a b c d w s t : ℝ) (hst : s ≤ t) (h : ∀ x, s ≤ x → x ≤ t → W x = a + b * x + c * x ^ 2 + d * x ^ 3) :
    ∫ x in s..t, W x * Real.cos (w * x) = ∫ x in s..t, (a + b * x + c * x ^ 2 + d * x ^ 3) * Real.cos (w * x) := by
  apply intervalIntegral.integral_congr
  intro x hx
  rw [Set.uIcc_of_le hst] at hx
  simp only
  rw [h x hx.1 hx.2]

theorem piece_zero (a b c d s t : ℝ) : ∫ x in s..t, (a + b * x + c * x ^ 2 + d * x ^ 3) * Real.cos (0 * x) =
    (a * t + b * t ^ 2 / 2 + c * t ^ 3 / 3 + d * t ^ 4 / 4) - (a * s + b * s ^ 2 / 2 + c * s ^ 3 / 3 + d * s ^ 4 / 4) := by
  have h := integral_poly a b c d 0 0 0 s t
  simp only [zero_mul, add_zero, zero_div] at h
  simp only [zero_mul, Real.cos_zero, mul_one]
  exact h

/-- **C87.** What `CompensateCIC` divides by is the Fourier transform of the cloud in cell window. -/
theorem cic_transform (w : ℝ) : ∫ x in (-2 : ℝ)..2, cic x * Real.cos (w * x) = divisor .CIC w := by
  rw [even_integral cic (fun x => (even_windows x).1) cic_continuous, half_split cic cic_continuous w 1 1,
    piece cic 1 (-1) 0 0 w 0 1 (by norm_num) (fun x h0 h1 => by rw [cic_eq x h0 h1]; ring),
    piece cic 0 0 0 0 w 1 2 (by norm_num) (fun x h0 _ => by rw [cic_out x h0]; ring)]
  by_cases hw : w = 0
  · subst hw
    rw [divisor_zero, piece_zero, piece_zero, intervalIntegral.integral_same]
    norm_num
  · have hd : divisor .CIC w = (Real.sin (w / 2) / (w / 2)) ^ 2 := by simp only [divisor, if_neg hw, sinc_half w hw]
    rw [hd, integral_cubic_cos _ _ _ _ _ _ _ hw, integral_cubic_cos _ _ _ _ _ _ _ hw, intervalIntegral.integral_same]
    have h2 : w * 1 = 2 * (w / 2) := by ring
    rw [h2, Real.cos_two_mul, Real.sin_two_mul]
    have hp := Real.sin_sq_add_cos_sq (w / 2)
    simp only [mul_zero, Real.sin_zero, Real.cos_zero]
    field_simp
    linear_combination (-2 * w ^ 2) * hp

/-- **C87.** The same for `CompensateTSC`. -/
theorem tsc_transform (w : ℝ) : ∫ x in (-2 : ℝ)..2, tsc x * Real.cos (w * x) = divisor .TSC w := by
  rw [even_integral tsc (fun x => (even_windows x).2.1) tsc_continuous, half_split tsc tsc_continuous w (1 / 2) (3 / 2),
    piece tsc (3 / 4) 0 (-1) 0 w 0 (1 / 2) (by norm_num) (fun x h0 h1 => by rw [tsc_eq1 x h0 h1]; ring),
    piece tsc (9 / 8) (-3 / 2) (1 / 2) 0 w (1 / 2) (3 / 2) (by norm_num) (fun x h0 h1 => by rw [tsc_eq2 x h0 h1]; ring),
    piece tsc 0 0 0 0 w (3 / 2) 2 (by norm_num) (fun x h0 _ => by rw [tsc_out x h0]; ring)]
  by_cases hw : w = 0
  · subst hw
    rw [divisor_zero, piece_zero, piece_zero, piece_zero]
    norm_num
  · have hd : divisor .TSC w = (Real.sin (w / 2) / (w / 2)) ^ 3 := by simp only [divisor, sinc_half w hw]
    rw [hd, integral_cubic_cos _ _ _ _ _ _ _ hw, integral_cubic_cos _ _ _ _ _ _ _ hw, integral_cubic_cos _ _ _ _ _ _ _ hw]
    have h2 : w * (1 / 2) = w / 2 := by ring
    have h3 : w * (3 / 2) = 3 * (w / 2) := by ring
    rw [h2, h3, Real.cos_three_mul, Real.sin_three_mul]
    have hp := Real.sin_sq_add_cos_sq (w / 2)
    simp only [mul_zero, Real.sin_zero, Real.cos_zero]
    field_simp
    ring_nf

/-- **C87.** The same for `CompensatePCS`. -/
theorem pcs_transform (w : ℝ) : ∫ x in (-2 : ℝ)..2, pcs x * Real.cos (w * x) = divisor .PCS w := by
  rw [even_integral pcs (fun x => (even_windows x).2.2) pcs_continuous, half_split pcs pcs_continuous w 1 2,
    piece pcs (2 / 3) 0 (-1) (1 / 2) w 0 1 (by norm_num) (fun x h0 h1 => by rw [pcs_eq1 x h0 h1]; ring),
    piece pcs (4 / 3) (-2) 1 (-1 / 6) w 1 2 (by norm_num) (fun x h0 h1 => by rw [pcs_eq2 x h0 h1]; ring)]
  by_cases hw : w = 0
  · subst hw
    rw [divisor_zero, piece_zero, piece_zero, intervalIntegral.integral_same]
    norm_num
  · have hd : divisor .PCS w = (Real.sin (w / 2) / (w / 2)) ^ 4 := by simp only [divisor, sinc_half w hw]
    rw [hd, integral_cubic_cos _ _ _ _ _ _ _ hw, integral_cubic_cos _ _ _ _ _ _ _ hw, intervalIntegral.integral_same]
    have h2 : w * 1 = 2 * (w / 2) := by ring
    have h3 : w * 2 = 2 * (2 * (w / 2)) := by ring
    rw [h2, h3, Real.cos_two_mul (2 * (w / 2)), Real.sin_two_mul (2 * (w / 2)), Real.cos_two_mul, Real.sin_two_mul]
    have hp := Real.sin_sq_add_cos_sq (w / 2)
    have hs : Real.sin (w / 2) ^ 4 = (1 - Real.cos (w / 2) ^ 2) ^ 2 := by rw [← hp]; ring
    simp only [mul_zero, Real.sin_zero, Real.cos_zero]
    rw [div_pow, hs]
    field_simp
    ring_nf

/-! ## Shot noise -/

/-- The mode of frequency `w` of one particle at the position `x` (in cells) painted with the window `W` on the mesh points. -/
noncomputable def amp (W : ℝ → ℝ) (w x : ℝ) : ℂ := ∑' g : ℤ, (W (g - x) : ℂ) * Complex.exp (-(w * g : ℝ) * Complex.I)

/-- The power of one particle does not depend on the cell. -/
theorem amp_periodic (W : ℝ → ℝ) (w : ℝ) : Function.Periodic (fun x => Complex.normSq (amp W w x)) 1 := by
  intro x
  have h : amp W w (x + 1) = Complex.exp (-(w : ℝ) * Complex.I) * amp W w x := by
    unfold amp
    rw [← (Equiv.addRight (1 : ℤ)).tsum_eq, ← tsum_mul_left]
    apply tsum_congr
    intro g
    simp only [Equiv.coe_addRight]
    have h1 : (((g + 1 : ℤ) : ℝ) - (x + 1)) = (g : ℝ) - x := by push_cast; ring
    rw [h1, mul_left_comm, ← Complex.exp_add]
    congr 2
    push_cast
    ring
  simp only
  rw [h, map_mul]
  have : Complex.normSq (Complex.exp (-(w : ℝ) * Complex.I)) = 1 := by
    rw [Complex.normSq_eq_norm_sq, Complex.norm_exp]
    simp
  rw [this, one_mul]

theorem normSq_sum (s : Finset ℤ) (a : ℤ → ℝ) (w : ℝ) : Complex.normSq (∑ g ∈ s, (a g : ℂ) * Complex.exp (-(w * g : ℝ) * Complex.I)) =
    (∑ g ∈ s, a g * Real.cos (w * g)) ^ 2 + (∑ g ∈ s, a g * Real.sin (w * g)) ^ 2 := by
  have h : ∀ g : ℤ, (a g : ℂ) * Complex.exp (-(w * g : ℝ) * Complex.I) = ⟨a g * Real.cos (w * g), -(a g * Real.sin (w * g))⟩ := by
    intro g
    generalize w * (g : ℝ) = θ
    have : -(θ : ℂ) * Complex.I = ((-θ : ℝ) : ℂ) * Complex.I := by push_cast; ring
    rw [this, Complex.exp_mul_I, ← Complex.ofReal_cos, ← Complex.ofReal_sin]
    apply Complex.ext
    · rw [Complex.re_ofReal_mul]
      simp only [Complex.add_re, Complex.mul_re, Complex.ofReal_re, Complex.ofReal_im, Complex.I_re, Complex.I_im, Real.cos_neg]
      ring
    · rw [Complex.im_ofReal_mul]
      simp only [Complex.add_im, Complex.mul_im, Complex.ofReal_re, Complex.ofReal_im, Complex.I_re, Complex.I_im, Real.sin_neg]
      ring
  rw [Complex.normSq_apply, Complex.re_sum, Complex.im_sum]
  simp only [h, Finset.sum_neg_distrib]
  ring

/-- With a window that vanishes two cells away, six mesh points matter. -/
theorem normSq_amp (W : ℝ → ℝ) (hW : ∀ x, 2 ≤ |x| → W x = 0) (w x : ℝ) (h0 : -1 ≤ x) (h1 : x ≤ 1) :
    Complex.normSq (amp W w x) =
      (W (-2 - x) * Real.cos (2 * w) + W (-1 - x) * Real.cos w + W (-x) + W (1 - x) * Real.cos w + W (2 - x) * Real.cos (2 * w)) ^ 2 +
      (-(W (-2 - x) * Real.sin (2 * w)) - W (-1 - x) * Real.sin w + W (1 - x) * Real.sin w + W (2 - x) * Real.sin (2 * w)) ^ 2 := by
  have hs : amp W w x = ∑ g ∈ ({-2, -1, 0, 1, 2} : Finset ℤ), (W (g - x) : ℂ) * Complex.exp (-(w * g : ℝ) * Complex.I) := by
    unfold amp
    apply tsum_eq_sum
    intro g hg
    have : (3 : ℤ) ≤ g ∨ g ≤ -3 := by
      simp only [Finset.mem_insert, Finset.mem_singleton, not_or] at hg
      omega
    have hz : W (g - x) = 0 := by
      apply hW
      rcases this with h | h
      · have : (3 : ℝ) ≤ g := by exact_mod_cast h
        rw [le_abs]
        left
        linarith
      · have : (g : ℝ) ≤ -3 := by exact_mod_cast h
        rw [le_abs]
        right
        linarith
    rw [hz]
    simp
  rw [hs, normSq_sum _ (fun g => W (g - x))]
  have e2 : w * 2 = 2 * w := mul_comm _ _
  simp [Finset.sum_insert, e2]
  ring

theorem cic_far (x : ℝ) (h : 2 ≤ |x|) : cic x = 0 := by
  unfold cic
  rw [if_neg (by linarith)]

theorem tsc_far (x : ℝ) (h : 2 ≤ |x|) : tsc x = 0 := by
  unfold tsc
  rw [if_neg (by linarith), if_neg (by linarith)]

theorem pcs_far (x : ℝ) (h : 2 ≤ |x|) : pcs x = 0 := by
  unfold pcs
  rw [if_neg (by linarith), if_neg (by linarith)]

theorem cos_half (w : ℝ) : Real.cos w = 1 - 2 * Real.sin (1 / 2 * w) ^ 2 := by
  have h := Real.cos_two_mul (1 / 2 * w)
  have hp := Real.sin_sq_add_cos_sq (1 / 2 * w)
  have e : 2 * (1 / 2 * w) = w := by ring
  rw [e] at h
  linear_combination h + 2 * hp

/-- **C87.** The mean power of a particle painted with clouds in cells, over all positions in a cell, is what `CompensateCICShotnoise` divides by
(before the root). -/
theorem cic_shotnoise (w : ℝ) : ∫ x in (0 : ℝ)..1, Complex.normSq (amp cic w x) = 1 - 2 / 3 * Real.sin (1 / 2 * w) ^ 2 := by
  have hC := cos_half w
  have hp := Real.sin_sq_add_cos_sq w
  have : ∫ x in (0 : ℝ)..1, Complex.normSq (amp cic w x) = ∫ x in (0 : ℝ)..1, (1 + (-2 + 2 * Real.cos w) * x + (2 + -2 * Real.cos w) * x ^ 2 +
      0 * x ^ 3 + 0 * x ^ 4 + 0 * x ^ 5 + 0 * x ^ 6) := by
    apply intervalIntegral.integral_congr
    intro x hx
    rw [Set.uIcc_of_le (by norm_num)] at hx
    simp only
    rw [normSq_amp cic cic_far w x (by linarith [hx.1]) hx.2, ← (even_windows (-2 - x)).1, ← (even_windows (-1 - x)).1, (even_windows x).1,
      cic_out (-(-2 - x)) (by linarith [hx.1]), cic_out (-(-1 - x)) (by linarith [hx.1]), cic_eq x hx.1 hx.2, cic_eq (1 - x) (by linarith [hx.2]) (by linarith [hx.1]),
      cic_out (2 - x) (by linarith [hx.2])]
    linear_combination x ^ 2 * hp
  rw [this, integral_poly, hC]
  ring

/-- **C87.** The same for `CompensatePCSShotnoise`. -/
theorem pcs_shotnoise (w : ℝ) : ∫ x in (0 : ℝ)..1, Complex.normSq (amp pcs w x) =
    1 - 4 / 3 * Real.sin (1 / 2 * w) ^ 2 + 2 / 5 * (Real.sin (1 / 2 * w) ^ 2) ^ 2 - 4 / 315 * (Real.sin (1 / 2 * w) ^ 2) ^ 3 := by
  have hC := cos_half w
  have hp := Real.sin_sq_add_cos_sq w
  generalize hc2 : 2 * Real.cos w ^ 2 - 1 = C2
  generalize hc3 : 4 * Real.cos w ^ 3 - 3 * Real.cos w = C3
  have : ∫ x in (0 : ℝ)..1, Complex.normSq (amp pcs w x) = ∫ x in (0 : ℝ)..1,
      ((1/2 + 4/9 * Real.cos w + 1/18 * C2) + 0 * x + (-1/2 + 2/3 * Real.cos w + -1/6 * C2) * x ^ 2 + (4/9 + -1/2 * Real.cos w + 1/18 * C3) * x ^ 3 +
      (7/6 + -11/6 * Real.cos w + 5/6 * C2 + -1/6 * C3) * x ^ 4 + (-5/3 + 5/2 * Real.cos w + -1 * C2 + 1/6 * C3) * x ^ 5 +
      (5/9 + -5/6 * Real.cos w + 1/3 * C2 + -1/18 * C3) * x ^ 6) := by
    apply intervalIntegral.integral_congr
    intro x hx
    rw [Set.uIcc_of_le (by norm_num)] at hx
    simp only
    rw [normSq_amp pcs pcs_far w x (by linarith [hx.1]) hx.2, ← (even_windows (-2 - x)).2.2, ← (even_windows (-1 - x)).2.2, (even_windows x).2.2,
      pcs_out (-(-2 - x)) (by linarith [hx.1]), pcs_eq2 (-(-1 - x)) (by linarith [hx.1]) (by linarith [hx.2]), pcs_eq1 x hx.1 hx.2,
      pcs_eq1 (1 - x) (by linarith [hx.2]) (by linarith [hx.1]), pcs_eq2 (2 - x) (by linarith [hx.2]) (by linarith [hx.1]),
      Real.cos_two_mul, Real.sin_two_mul, ← hc2, ← hc3]
    linear_combination ((4 - 6 * (1 - x) ^ 2 + 3 * (1 - x) ^ 3) / 6 - (1 - x) ^ 3 / 6 + 2 * (x ^ 3 / 6) * Real.cos w) ^ 2 * hp
  rw [this, integral_poly, ← hc2, ← hc3, hC]
  ring

/-- **C87.** The same for `CompensateTSCShotnoise`. -/
theorem tsc_shotnoise (w : ℝ) : ∫ x in (0 : ℝ)..1, Complex.normSq (amp tsc w x) =
    1 - Real.sin (1 / 2 * w) ^ 2 + 2 / 15 * (Real.sin (1 / 2 * w) ^ 2) ^ 2 := by
  have hC := cos_half w
  have hp := Real.sin_sq_add_cos_sq w
  have hper := (amp_periodic tsc w).intervalIntegral_add_eq 0 (-1 / 2)
  have e1 : (0 : ℝ) + 1 = 1 := by norm_num
  have e2 : (-1 / 2 : ℝ) + 1 = 1 / 2 := by norm_num
  rw [e1, e2] at hper
  rw [hper]
  generalize hc2 : 2 * Real.cos w ^ 2 - 1 = C2
  have : ∫ x in (-1 / 2 : ℝ)..(1 / 2), Complex.normSq (amp tsc w x) = ∫ x in (-1 / 2 : ℝ)..(1 / 2),
      ((19/32 + 3/8 * Real.cos w + 1/32 * C2) + 0 * x + (-3/4 + 1 * Real.cos w + -1/4 * C2) * x ^ 2 + 0 * x ^ 3 +
      (3/2 + -2 * Real.cos w + 1/2 * C2) * x ^ 4 + 0 * x ^ 5 + 0 * x ^ 6) := by
    apply intervalIntegral.integral_congr
    intro x hx
    rw [Set.uIcc_of_le (by norm_num)] at hx
    have h0 := hx.1
    have h1 := hx.2
    have hm : tsc (-x) = 3 / 4 - x ^ 2 := by
      rcases le_total 0 x with h | h
      · rw [(even_windows x).2.1, tsc_eq1 x h h1]
      · rw [tsc_eq1 (-x) (by linarith) (by linarith)]
        ring
    simp only
    rw [normSq_amp tsc tsc_far w x (by linarith) (by linarith), hm, ← (even_windows (-2 - x)).2.1, ← (even_windows (-1 - x)).2.1,
      tsc_out (-(-2 - x)) (by linarith), tsc_eq2 (-(-1 - x)) (by linarith) (by linarith), tsc_eq2 (1 - x) (by linarith) (by linarith),
      tsc_out (2 - x) (by linarith), ← hc2]
    linear_combination ((3 / 2 - (1 - x)) ^ 2 / 2 - (3 / 2 - (1 + x)) ^ 2 / 2) ^ 2 * hp
  rw [this, integral_poly, ← hc2, hC]
  ring

/-! ## The functions are defined on all modes -/

/-- **C87.** The shot noise kernels are positive for every frequency (nothing is divided by zero and no root is taken of a negative number). -/
theorem shotnoise_pos (k : Kernel) (hk : k = .CICShotnoise ∨ k = .TSCShotnoise ∨ k = .PCSShotnoise) (w : ℝ) : 0 < divisor k w := by
  have h0 := sq_nonneg (Real.sin (1 / 2 * w))
  have h1 := Real.sin_sq_le_one (1 / 2 * w)
  rcases hk with rfl | rfl | rfl <;> simp only [divisor, Real.sqrt_pos] <;> generalize Real.sin (1 / 2 * w) ^ 2 = s at h0 h1
  · linarith
  · nlinarith
  · have e : 1 - 4 / 3 * s + 2 / 5 * s ^ 2 - 4 / 315 * s ^ 3 = 17 / 315 + (1 - s) * (298 / 315 - 122 / 315 * s + 4 / 315 * s ^ 2) := by ring
    rw [e]
    have : 0 ≤ (1 - s) * (298 / 315 - 122 / 315 * s + 4 / 315 * s ^ 2) := mul_nonneg (by linarith) (by nlinarith)
    linarith

/-- **C87.** The other kernels are positive for the frequencies of a mesh, `-π ≤ w ≤ π`. -/
theorem transform_pos (k : Kernel) (w : ℝ) (hw : |w| ≤ Real.pi) : 0 < divisor k w := by
  by_cases h0 : w = 0
  · rw [h0, divisor_zero]
    norm_num
  have hs : 0 < sinc (1 / 2 * w / Real.pi) := by
    rw [sinc_half w h0]
    rcases lt_or_gt_of_ne h0 with h | h
    · rw [abs_of_neg h] at hw
      have : Real.sin (w / 2) < 0 := Real.sin_neg_of_neg_of_neg_pi_lt (by linarith) (by linarith [Real.pi_pos])
      exact div_pos_of_neg_of_neg this (by linarith)
    · rw [abs_of_pos h] at hw
      have : 0 < Real.sin (w / 2) := Real.sin_pos_of_pos_of_lt_pi (by linarith) (by linarith [Real.pi_pos])
      exact div_pos this (by linarith)
  cases k
  case CIC =>
    simp only [divisor, if_neg h0]
    positivity
  case TSC =>
    simp only [divisor]
    positivity
  case PCS =>
    simp only [divisor]
    positivity
  all_goals exact shotnoise_pos _ (by simp) w

/-- Hypothesis is needed: at twice the largest frequency the transform of the window has a zero. -/
theorem transform_zero : divisor .TSC (2 * Real.pi) = 0 := by
  have hp := Real.pi_ne_zero
  simp only [divisor]
  rw [sinc_half _ (by positivity)]
  have : 2 * Real.pi / 2 = Real.pi := by ring
  rw [this, Real.sin_pi]
  norm_num

/-! ## What a compensated mesh gives -/

/-- The window of a resampler. -/
noncomputable def window : String → Option (ℝ → ℝ)
  | "cic" => some cic
  | "tsc" => some tsc
  | "pcs" => some pcs
  | _ => none

/-- **C87.** With interlacing, the compensation removes the smoothing by the window: a mode of a smooth field multiplied by the transforms of the window
along the three axes is restored, for all frequencies of the mesh. -/
theorem interlaced_restores (r : String) (W : ℝ → ℝ) (k : Kernel) (hW : window r = some W) (hk : getCompensation true r = .ok k)
    (w0 w1 w2 : ℝ) (h0 : |w0| ≤ Real.pi) (h1 : |w1| ≤ Real.pi) (h2 : |w2| ≤ Real.pi) (v : ℂ) :
    apply k [w0, w1, w2] (v * ((∫ x in (-2 : ℝ)..2, W x * Real.cos (w0 * x) : ℝ) : ℂ) * ((∫ x in (-2 : ℝ)..2, W x * Real.cos (w1 * x) : ℝ) : ℂ) *
      ((∫ x in (-2 : ℝ)..2, W x * Real.cos (w2 * x) : ℝ) : ℂ)) = .ok v := by
  have key : ∀ w : ℝ, ∫ x in (-2 : ℝ)..2, W x * Real.cos (w * x) = divisor k w := by
    intro w
    unfold window at hW
    split at hW <;> simp only [Option.some.injEq, reduceCtorEq] at hW <;> subst hW <;> simp [getCompensation] at hk <;> subst hk
    · exact cic_transform w
    · exact tsc_transform w
    · exact pcs_transform w
  have n0 : (divisor k w0 : ℂ) ≠ 0 := by exact_mod_cast (transform_pos k w0 h0).ne'
  have n1 : (divisor k w1 : ℂ) ≠ 0 := by exact_mod_cast (transform_pos k w1 h1).ne'
  have n2 : (divisor k w2 : ℂ) ≠ 0 := by exact_mod_cast (transform_pos k w2 h2).ne'
  simp only [apply, key]
  congr 1
  field_simp

/-- The transform is the whole Fourier integral: the sine part of an even window vanishes and the window is zero beyond two cells. -/
theorem window_even (r : String) (W : ℝ → ℝ) (hW : window r = some W) : (∀ x, W (-x) = W x) ∧ ∀ x, 2 ≤ |x| → W x = 0 := by
  unfold window at hW
  split at hW <;> simp only [Option.some.injEq, reduceCtorEq] at hW <;> subst hW
  · exact ⟨fun x => (even_windows x).1, cic_far⟩
  · exact ⟨fun x => (even_windows x).2.1, tsc_far⟩
  · exact ⟨fun x => (even_windows x).2.2, pcs_far⟩

/-- **C87.** Without interlacing, the shot noise of the compensated field is white: averaged over the positions of a particle in a cell, each mode has power
one, for every frequency and not only to first order. -/
theorem shotnoise_white (r : String) (W : ℝ → ℝ) (k : Kernel) (hW : window r = some W) (hk : getCompensation false r = .ok k) (w0 w1 w2 : ℝ)
    (f : ℝ → ℝ → ℝ → ℂ) (hf : ∀ x y z, apply k [w0, w1, w2] (amp W w0 x * amp W w1 y * amp W w2 z) = .ok (f x y z)) :
    ∫ x in (0 : ℝ)..1, ∫ y in (0 : ℝ)..1, ∫ z in (0 : ℝ)..1, Complex.normSq (f x y z) = 1 := by
  have key : (k = .CICShotnoise ∨ k = .TSCShotnoise ∨ k = .PCSShotnoise) ∧ ∀ w : ℝ, ∫ x in (0 : ℝ)..1, Complex.normSq (amp W w x) = divisor k w ^ 2 := by
    unfold window at hW
    split at hW <;> simp only [Option.some.injEq, reduceCtorEq] at hW <;> subst hW <;> simp [getCompensation] at hk <;> subst hk <;>
      refine ⟨by simp, fun w => ?_⟩
    · have hpos := shotnoise_pos .CICShotnoise (by simp) w
      simp only [divisor, Real.sqrt_pos] at hpos ⊢
      rw [Real.sq_sqrt hpos.le, cic_shotnoise]
    · have hpos := shotnoise_pos .TSCShotnoise (by simp) w
      simp only [divisor, Real.sqrt_pos] at hpos ⊢
      rw [Real.sq_sqrt hpos.le, tsc_shotnoise]
    · have hpos := shotnoise_pos .PCSShotnoise (by simp) w
      simp only [divisor, Real.sqrt_pos] at hpos ⊢
      rw [Real.sq_sqrt hpos.le, pcs_shotnoise]
  obtain ⟨hkk, key⟩ := key
  have n0 := (shotnoise_pos k hkk w0).ne'
  have n1 := (shotnoise_pos k hkk w1).ne'
  have n2 := (shotnoise_pos k hkk w2).ne'
  have hv : ∀ x y z, Complex.normSq (f x y z) = (Complex.normSq (amp W w0 x) / divisor k w0 ^ 2) *
      ((Complex.normSq (amp W w1 y) / divisor k w1 ^ 2) * (Complex.normSq (amp W w2 z) / divisor k w2 ^ 2)) := by
    intro x y z
    have h := hf x y z
    simp only [apply, Except.ok.injEq] at h
    rw [← h, map_div₀, map_div₀, map_div₀, map_mul, map_mul, Complex.normSq_ofReal, Complex.normSq_ofReal, Complex.normSq_ofReal]
    field_simp
  simp only [hv, intervalIntegral.integral_const_mul, intervalIntegral.integral_mul_const, intervalIntegral.integral_div, key]
  field_simp

/-- **C87.** Which names have a compensation, and that others raise when the mesh is painted. -/
theorem compensation_iff (i : Bool) (r : String) : (∃ k, getCompensation i r = .ok k) ↔ (window r).isSome := by
  unfold window
  split
  · cases i <;> simp [getCompensation]
  · cases i <;> simp [getCompensation]
  · cases i <;> simp [getCompensation]
  · rename_i h1 h2 h3
    have h1 : r ≠ "cic" := h1
    have h2 : r ≠ "tsc" := h2
    have h3 : r ≠ "pcs" := h3
    cases i <;> simp [getCompensation, h1, h2, h3]

/-- **C87.** Nothing is applied without `compensated`, else the filter comes first and once. -/
theorem actions_spec {α : Type} (m : Mesh) (acts : List α) :
    (m.compensated = false → actions m acts = .ok (acts.map .inr)) ∧
    (∀ k, m.compensated = true → getCompensation m.interlaced m.resampler = .ok k → actions m acts = .ok (.inl k :: acts.map .inr)) ∧
    (m.compensated = true → window m.resampler = none → ∃ e, actions m acts = .error e) := by
  refine ⟨fun h => by simp [actions, h], fun k h hk => by simp [actions, h, hk, Except.map], fun h hn => ?_⟩
  have := (compensation_iff m.interlaced m.resampler).not.mpr (by simp [hn])
  cases hg : getCompensation m.interlaced m.resampler with
  | ok k => exact absurd ⟨k, hg⟩ this
  | error e => exact ⟨e, by simp [actions, h, hg, Except.map]⟩

/-- The names pmesh knows. -/
def pmeshMethods : List String := ["nnb", "cic", "tsc", "pcs", "NNB", "CIC", "TSC", "PCS"]

/-- **C87, not as documented.** A name in capitals works when it is set on a mesh, but a mesh made with it cannot be painted with the compensation; and
a mesh in two dimensions cannot be compensated. -/
theorem capitals_raise :
    (∃ m, toMesh pmeshMethods "CIC" false true = .ok m ∧ actions m ([] : List Nat) = .error .valueError ∧
      ∃ m', setResampler pmeshMethods m "CIC" = .ok m' ∧ actions m' ([] : List Nat) = .ok [.inl .CICShotnoise]) ∧
    ∀ (k : Kernel) (w0 w1 : ℝ) (v : ℂ), apply k [w0, w1] v = .error .indexError := by
  refine ⟨⟨⟨false, true, "CIC"⟩, by decide, by decide, ⟨false, true, "cic"⟩, by decide, by decide⟩, fun _ _ _ _ => rfl⟩

/-- The hypotheses of the two main theorems are met. -/
example : ∃ W, window "tsc" = some W ∧ getCompensation true "tsc" = .ok .TSC ∧ getCompensation false "tsc" = .ok .TSCShotnoise := ⟨tsc, rfl, rfl, rfl⟩

end NBK.Comp
