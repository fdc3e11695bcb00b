import Verif.Multipoles.Model
import Verif.Ylm.Props
import Mathlib.Analysis.Calculus.Deriv.Polynomial
import Mathlib.Analysis.Calculus.MeanValue
import Mathlib.MeasureTheory.Integral.IntervalIntegral.FundThmCalculus
import Mathlib.Topology.Algebra.Polynomial

set_option linter.unusedSimpArgs false
/-!
# Legendre polynomials: orthogonality and bounds
-/
noncomputable section
namespace NBK.Multipoles
open Polynomial Ylm MeasureTheory

theorem cont (p : ℝ[X]) : Continuous fun x => p.eval x := p.continuous

theorem integrable (p : ℝ[X]) (a b : ℝ) : IntervalIntegrable (fun x => p.eval x) volume a b := p.continuous.intervalIntegrable a b

/-- The integral of a derivative. -/
theorem integral_derivative (p : ℝ[X]) (a b : ℝ) : ∫ x in a..b, (derivative p).eval x = p.eval b - p.eval a :=
  intervalIntegral.integral_eq_sub_of_hasDerivAt (fun x _ => p.hasDerivAt x) (integrable _ a b)

/-- The integral over `[-1, 1]`. -/
def I (p : ℝ[X]) : ℝ := ∫ x in (-1 : ℝ)..1, p.eval x

theorem I_add (p q : ℝ[X]) : I (p + q) = I p + I q := by
  unfold I
  simp only [eval_add]
  exact intervalIntegral.integral_add (integrable p _ _) (integrable q _ _)

theorem I_sub (p q : ℝ[X]) : I (p - q) = I p - I q := by
  unfold I
  simp only [eval_sub]
  exact intervalIntegral.integral_sub (integrable p _ _) (integrable q _ _)

theorem I_C_mul (c : ℝ) (p : ℝ[X]) : I (C c * p) = c * I p := by
  unfold I
  simp only [eval_mul, eval_C]
  exact intervalIntegral.integral_const_mul _ _

theorem ode (l : Nat) : derivative ((1 - X ^ 2) * derivative (legendre l)) = -(C ((l : ℝ) * (l + 1)) * legendre l) := by
  apply Polynomial.funext
  intro x
  have h := legendre_ode l x
  simp only [derivative_mul, derivative_sub, derivative_one, derivative_X_pow, eval_add, eval_mul, eval_sub, eval_neg, eval_one, eval_pow,
    eval_X, eval_C, eval_zero, Nat.cast_ofNat, map_ofNat, eval_ofNat]
  linear_combination h

/-- Polynomials of different degree are orthogonal. -/
theorem orthogonal {l k : Nat} (h : l ≠ k) : I (legendre l * legendre k) = 0 := by
  have hd : derivative ((1 - X ^ 2) * derivative (legendre l) * legendre k - (1 - X ^ 2) * derivative (legendre k) * legendre l) =
      C ((k : ℝ) * (k + 1) - l * (l + 1)) * (legendre l * legendre k) := by
    rw [derivative_sub, derivative_mul (f := (1 - X ^ 2) * derivative (legendre l)),
      derivative_mul (f := (1 - X ^ 2) * derivative (legendre k)), ode, ode, C_sub]
    ring
  have hI := integral_derivative
    ((1 - X ^ 2) * derivative (legendre l) * legendre k - (1 - X ^ 2) * derivative (legendre k) * legendre l) (-1) 1
  rw [hd] at hI
  change I _ = _ at hI
  rw [I_C_mul] at hI
  simp only [eval_sub, eval_mul, eval_one, eval_pow, eval_X] at hI
  norm_num at hI
  rcases hI with hI | hI
  · exfalso
    apply h
    have h1 : ((l : ℝ) - k) * (l + k + 1) = 0 := by linear_combination -hI
    have h2 : (l : ℝ) + k + 1 ≠ 0 := by positivity
    have h3 := (mul_eq_zero.1 h1).resolve_right h2
    exact_mod_cast sub_eq_zero.1 h3
  · exact hI

theorem norm_sq (l : Nat) : (2 * (l : ℝ) + 1) * I (legendre l * legendre l) = 2 := by
  induction l using Nat.twoStepInduction with
  | zero =>
    have := integral_derivative X (-1) 1
    simp only [derivative_X, eval_X] at this
    unfold I
    simp only [legendre, mul_one]
    rw [this]; norm_num
  | one =>
    have := integral_derivative (C (1 / 3) * X ^ 3) (-1) 1
    unfold I
    simp only [legendre]
    rw [show derivative (C (1 / 3 : ℝ) * X ^ 3) = X * X by
      rw [derivative_C_mul, derivative_X_pow, ← mul_assoc]
      simp only [Nat.cast_ofNat]
      rw [show (C (3 : ℝ)) = C 3 from rfl, ← C_mul]
      norm_num
      ring] at this
    rw [this]
    simp only [eval_mul, eval_C, eval_pow, eval_X]
    norm_num
  | more l h1 h2 =>
    have e1 : C ((l : ℝ) + 2) * (legendre (l + 2) * legendre (l + 2)) =
        C (2 * (l : ℝ) + 3) * (X * legendre (l + 1) * legendre (l + 2)) - C ((l : ℝ) + 1) * (legendre l * legendre (l + 2)) := by
      linear_combination legendre (l + 2) * legendre_rec l
    have e2 : C ((l : ℝ) + 3) * (legendre (l + 3) * legendre (l + 1)) =
        C (2 * (l : ℝ) + 5) * (X * legendre (l + 1) * legendre (l + 2)) - C ((l : ℝ) + 2) * (legendre (l + 1) * legendre (l + 1)) := by
      have := legendre_rec (l + 1)
      push_cast at this
      rw [show (l : ℝ) + 1 + 2 = l + 3 by ring, show 2 * ((l : ℝ) + 1) + 3 = 2 * l + 5 by ring, show (l : ℝ) + 1 + 1 = l + 2 by ring,
        show l + 1 + 2 = l + 3 by ring, show l + 1 + 1 = l + 2 by ring] at this
      linear_combination legendre (l + 1) * this
    have f1 := congrArg I e1
    have f2 := congrArg I e2
    rw [I_sub, I_C_mul, I_C_mul, I_C_mul, orthogonal (by omega : l ≠ l + 2)] at f1
    rw [I_sub, I_C_mul, I_C_mul, I_C_mul, orthogonal (by omega : l + 3 ≠ l + 1)] at f2
    push_cast at h2 ⊢
    have hl : (l : ℝ) + 2 ≠ 0 := by positivity
    apply mul_left_cancel₀ hl
    linear_combination (2 * (l : ℝ) + 5) * f1 - (2 * (l : ℝ) + 3) * f2 + ((l : ℝ) + 2) * h2

/-- Even polynomials of even degree, odd ones of odd degree. -/
theorem legendre_neg (l : Nat) (x : ℝ) : (legendre l).eval (-x) = (-1) ^ l * (legendre l).eval x := by
  induction l using Nat.twoStepInduction with
  | zero => simp [legendre]
  | one => simp [legendre]
  | more l h1 h2 =>
    have ha := congrArg (eval (-x)) (legendre_rec l)
    have hb := congrArg (eval x) (legendre_rec l)
    simp only [eval_mul, eval_sub, eval_C, eval_X, h1, h2] at ha hb
    have hl : (l : ℝ) + 2 ≠ 0 := by positivity
    apply mul_left_cancel₀ hl
    rw [ha, pow_succ, pow_succ]
    linear_combination -(-1) ^ l * hb

/-- The harmonics bound the polynomials. -/
theorem sum_mul_le (a b : List ℝ) :
    2 * (List.zipWith (· * ·) a b).sum ≤ (a.map (· ^ 2)).sum + (b.map (· ^ 2)).sum ∧
    -((a.map (· ^ 2)).sum + (b.map (· ^ 2)).sum) ≤ 2 * (List.zipWith (· * ·) a b).sum := by
  have hn : ∀ l : List ℝ, 0 ≤ (l.map (· ^ 2)).sum := by
    intro l
    apply List.sum_nonneg
    simp only [List.mem_map]
    rintro _ ⟨v, _, rfl⟩
    positivity
  induction a generalizing b with
  | nil => simpa using hn b
  | cons x a ih =>
    cases b with
    | nil =>
      have := hn (x :: a)
      simp only [List.zipWith_nil_right, List.sum_nil, List.map_nil, add_zero, mul_zero]
      exact ⟨this, by linarith⟩
    | cons y b =>
      obtain ⟨h1, h2⟩ := ih b
      simp only [List.zipWith_cons_cons, List.sum_cons, List.map_cons]
      constructor <;> nlinarith [sq_nonneg (x - y), sq_nonneg (x + y)]

theorem legendre_le_one (l : Nat) {x : ℝ} (hx : |x| ≤ 1) : |(legendre l).eval x| ≤ 1 := by
  obtain ⟨h1, h2⟩ := abs_le.1 hx
  have hu : Unit3 (Real.sqrt (1 - x ^ 2)) 0 x := by
    unfold Unit3
    rw [Real.sq_sqrt (by nlinarith)]; ring
  have hv : Unit3 0 0 1 := by unfold Unit3; norm_num
  have ha := real_addition l hu hv
  have hb := sum_mul_le (realYlms l (Real.sqrt (1 - x ^ 2)) 0 x) (realYlms l 0 0 1)
  rw [real_sum_sq l hu, real_sum_sq l hv, ha] at hb
  have hp : (0 : ℝ) < (2 * l + 1) / (4 * Real.pi) := by
    have := Real.pi_pos
    positivity
  generalize (2 * (l : ℝ) + 1) / (4 * Real.pi) = c at *
  rw [show Real.sqrt (1 - x ^ 2) * 0 + 0 * 0 + x * 1 = x by ring] at hb
  rw [abs_le]
  constructor <;> nlinarith

theorem deriv_le (l : Nat) {x : ℝ} (hx : |x| ≤ 1) : |(derivative (legendre l)).eval x| ≤ l * (l + 1) / 2 := by
  induction l using Nat.twoStepInduction with
  | zero => simp [legendre]
  | one => simp [legendre]
  | more l h1 h2 =>
    have hA := congrArg (eval x) (legendre_deriv (l + 1)).1
    have hB := congrArg (eval x) (legendre_deriv l).2
    simp only [eval_mul, eval_add, eval_C, eval_X] at hA hB
    have he : (derivative (legendre (l + 2))).eval x = (derivative (legendre l)).eval x + (2 * l + 3) * (legendre (l + 1)).eval x := by
      push_cast at hA
      linear_combination hA + hB
    rw [he]
    have hp := legendre_le_one (l + 1) hx
    calc |(derivative (legendre l)).eval x + (2 * l + 3) * (legendre (l + 1)).eval x|
        ≤ |(derivative (legendre l)).eval x| + |(2 * (l : ℝ) + 3) * (legendre (l + 1)).eval x| := abs_add_le _ _
      _ ≤ (l : ℝ) * (l + 1) / 2 + (2 * l + 3) * 1 := by
          rw [abs_mul, abs_of_nonneg (show (0 : ℝ) ≤ 2 * l + 3 by positivity)]
          gcongr
      _ = _ := by push_cast; ring

theorem legendre_lipschitz (l : Nat) {x y : ℝ} (hx : |x| ≤ 1) (hy : |y| ≤ 1) :
    |(legendre l).eval x - (legendre l).eval y| ≤ l * (l + 1) / 2 * |x - y| := by
  have h := (convex_Icc (-1 : ℝ) 1).norm_image_sub_le_of_norm_hasDerivWithin_le (f := fun t => (legendre l).eval t)
    (f' := fun t => (derivative (legendre l)).eval t) (C := (l : ℝ) * (l + 1) / 2)
    (fun t _ => ((legendre l).hasDerivAt t).hasDerivWithinAt)
    (fun t ht => by rw [Real.norm_eq_abs]; exact deriv_le l (abs_le.2 ht)) (abs_le.1 hy) (abs_le.1 hx)
  simpa [Real.norm_eq_abs] using h

end NBK.Multipoles
