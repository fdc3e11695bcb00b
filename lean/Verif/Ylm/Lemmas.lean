import Verif.Ylm.Model
import Mathlib.Algebra.BigOperators.Intervals
import Mathlib.Algebra.Polynomial.Eval.Coeff
import Mathlib.Tactic.Ring
import Mathlib.Tactic.FieldSimp
import Mathlib.Tactic.Linarith
import Mathlib.Tactic.LinearCombination
import Mathlib.Tactic.Positivity

set_option linter.unusedSimpArgs false
/-!
# Legendre polynomials, their derivatives, and the addition theorem
-/
noncomputable section
namespace NBK.Ylm
open Polynomial

theorem legendre_rec (l : Nat) :
    C ((l : ℝ) + 2) * legendre (l + 2) = C (2 * (l : ℝ) + 3) * (X * legendre (l + 1)) - C ((l : ℝ) + 1) * legendre l := by
  rw [legendre, ← mul_assoc, ← C_mul]
  have : ((l : ℝ) + 2) * (1 / ((l : ℝ) + 2)) = 1 := by field_simp
  rw [this, C_1, one_mul]

/-- The two relations between neighbouring Legendre polynomials and their derivatives. -/
theorem legendre_deriv (l : Nat) :
    derivative (legendre (l + 1)) = X * derivative (legendre l) + C ((l : ℝ) + 1) * legendre l ∧
    X * derivative (legendre (l + 1)) = derivative (legendre l) + C ((l : ℝ) + 1) * legendre (l + 1) := by
  induction l with
  | zero => simp [legendre]
  | succ l ih =>
    obtain ⟨hA, hB⟩ := ih
    have hr := legendre_rec l
    have hd := congrArg derivative hr
    simp only [derivative_sub, derivative_mul, derivative_C, derivative_X, one_mul, zero_mul, zero_add] at hd
    have hpos : (C ((l : ℝ) + 2) : ℝ[X]) ≠ 0 := by
      rw [Ne, C_eq_zero]; positivity
    have e1 : (C (2 * (l : ℝ) + 3) : ℝ[X]) = 2 * C (l : ℝ) + 3 := by
      rw [C_add, C_mul]; rfl
    have e2 : (C ((l : ℝ) + 1) : ℝ[X]) = C (l : ℝ) + 1 := by rw [C_add]; rfl
    have e3 : (C ((l : ℝ) + 2) : ℝ[X]) = C (l : ℝ) + 2 := by rw [C_add]; rfl
    have e4 : (C (((l + 1 : Nat) : ℝ) + 1) : ℝ[X]) = C (l : ℝ) + 2 := by
      push_cast
      rw [← e3]; congr 1; ring
    rw [e1, e2, e3] at hr hd
    rw [e2] at hA hB
    rw [e3] at hpos
    rw [e4]
    have hA' : derivative (legendre (l + 2)) = X * derivative (legendre (l + 1)) + (C (l : ℝ) + 2) * legendre (l + 1) := by
      apply mul_left_cancel₀ hpos
      linear_combination hd + (C (l : ℝ) + 1) * hB
    refine ⟨hA', ?_⟩
    linear_combination X * hA' + X * hB - hA - hr

/-- The derivatives at a point. -/
def d (l m : Nat) (x : ℝ) : ℝ := (dleg l m).eval x

theorem d_A (l m : Nat) (x : ℝ) : d (l + 1) (m + 1) x = x * d l (m + 1) x + (l + 1 + m) * d l m x := by
  have h := congrArg (derivative^[m]) (legendre_deriv l).1
  rw [iterate_map_add, iterate_derivative_C_mul, mul_comm X, iterate_derivative_mul_X] at h
  have h := congrArg (eval x) h
  simp only [eval_add, eval_mul, eval_X, eval_C, nsmul_eq_mul, eval_natCast, ← Function.iterate_succ_apply] at h
  unfold d dleg
  rw [h]
  cases m with
  | zero => simp; ring
  | succ m =>
    simp only [Nat.add_sub_cancel]
    push_cast
    ring

theorem d_B (l m : Nat) (x : ℝ) : x * d (l + 1) (m + 1) x = d l (m + 1) x + (l + 1 - m) * d (l + 1) m x := by
  have h := congrArg (derivative^[m]) (legendre_deriv l).2
  rw [iterate_map_add, iterate_derivative_C_mul, mul_comm X, iterate_derivative_mul_X] at h
  have h := congrArg (eval x) h
  simp only [eval_add, eval_mul, eval_X, eval_C, nsmul_eq_mul, eval_natCast, ← Function.iterate_succ_apply] at h
  unfold d dleg
  cases m with
  | zero =>
    simp only [Nat.cast_zero, zero_mul, add_zero, sub_zero] at h ⊢
    linarith
  | succ m =>
    simp only [Nat.add_sub_cancel] at h
    push_cast at h ⊢
    linarith

theorem d_zero_one (m : Nat) (x : ℝ) : d 0 (m + 1) x = 0 := by
  unfold d dleg
  rw [Function.iterate_succ_apply]
  simp [legendre]

/-- Derivatives beyond the degree. -/
theorem d_big (l m : Nat) (h : l < m) (x : ℝ) : d l m x = 0 := by
  induction l generalizing m with
  | zero =>
    obtain ⟨m, rfl⟩ : ∃ k, m = k + 1 := ⟨m - 1, by omega⟩
    exact d_zero_one m x
  | succ l ih =>
    obtain ⟨m, rfl⟩ : ∃ k, m = k + 1 := ⟨m - 1, by omega⟩
    rw [d_A, ih m (by omega), ih (m + 1) (by omega)]
    ring

theorem d_R1 (l m : Nat) (x : ℝ) :
    (l + 1 - m) * d (l + 1) m x = (l + 1 + m) * x * d l m x - (1 - x ^ 2) * d l (m + 1) x := by
  have h1 := d_A l m x
  have h2 := d_B l m x
  linear_combination -h2 + x * h1

theorem d_R2 (l m : Nat) (x : ℝ) :
    (l + 1 + m) * d l m x = (1 - x ^ 2) * d (l + 1) (m + 1) x + (l + 1 - m) * x * d (l + 1) m x := by
  have h1 := d_A l m x
  have h2 := d_B l m x
  linear_combination -h1 + x * h2

theorem d_R3 (l m : Nat) (x : ℝ) :
    (l + m + 1) * (l - m) * d l m x = 2 * (m + 1) * x * d l (m + 1) x - (1 - x ^ 2) * d l (m + 2) x := by
  have h1 := d_A l m x
  have h2 := d_R1 l (m + 1) x
  push_cast at h2
  linear_combination h2 - (l - m) * h1

/-- The weights of the terms. -/
def c (l m : Nat) : ℝ := (l - m).factorial / (l + m).factorial

def g (l m : Nat) (a b : ℝ) : ℝ := c l m * d l m a * d l m b

/-- What the product with the scalar product of the transverse parts gives for the term `m`. -/
def hTerm (l m : Nat) (a b : ℝ) : ℝ :=
  let s := (1 - a ^ 2) * (1 - b ^ 2)
  match m with
  | 0 => s * g l 1 a b
  | m + 1 => (g l m a b + s * g l (m + 2) a b) / 2

theorem fact_pos (n : Nat) : (0 : ℝ) < n.factorial := by exact_mod_cast n.factorial_pos

theorem g_big (l m : Nat) (h : l < m) (a b : ℝ) : g l m a b = 0 := by simp [g, d_big l m h]

theorem fact_succ (n : Nat) : ((n + 1).factorial : ℝ) = (n + 1) * n.factorial := by
  rw [Nat.factorial_succ]; push_cast; ring

/-- The recurrence of the terms. -/
theorem g_rec (l m : Nat) (a b : ℝ) :
    (l + 2) * g (l + 2) m a b + (l + 1) * g l m a b = (2 * l + 3) * (a * b * g (l + 1) m a b + hTerm (l + 1) m a b) := by
  rcases Nat.lt_or_ge l m with hm | hm
  · -- beyond the degree of the lowest
    rcases Nat.lt_or_ge (l + 2) m with h2 | h2
    · obtain ⟨m, rfl⟩ : ∃ k, m = k + 1 := ⟨m - 1, by omega⟩
      simp only [hTerm]
      rw [g_big _ _ h2, g_big _ _ hm, g_big (l + 1) (m + 1) (by omega), g_big (l + 1) m (by omega), g_big (l + 1) (m + 2) (by omega)]
      ring
    · have : m = l + 1 ∨ m = l + 2 := by omega
      rcases this with rfl | rfl
      · simp only [hTerm]
        rw [g_big l (l + 1) (by omega), g_big (l + 1) (l + 2) (by omega)]
        have ha := d_R1 (l + 1) (l + 1) a
        have hb := d_R1 (l + 1) (l + 1) b
        have ha3 := d_R3 (l + 1) l a
        have hb3 := d_R3 (l + 1) l b
        rw [d_big (l + 1) (l + 2) (by omega)] at ha ha3
        rw [d_big (l + 1) (l + 2) (by omega)] at hb hb3
        push_cast at ha hb ha3 hb3
        have k1 : d (l + 1 + 1) (l + 1) a = (2 * l + 3) * a * d (l + 1) (l + 1) a := by linear_combination ha
        have k2 : d (l + 1 + 1) (l + 1) b = (2 * l + 3) * b * d (l + 1) (l + 1) b := by linear_combination hb
        have k3 : d (l + 1) l a = a * d (l + 1) (l + 1) a := by
          have : (2 * (l : ℝ) + 2) ≠ 0 := by positivity
          apply mul_left_cancel₀ this
          linear_combination ha3
        have k4 : d (l + 1) l b = b * d (l + 1) (l + 1) b := by
          have : (2 * (l : ℝ) + 2) ≠ 0 := by positivity
          apply mul_left_cancel₀ this
          linear_combination hb3
        have f := fact_pos (l + 1 + l)
        have c1 : c (l + 2) (l + 1) = 1 / ((2 * l + 3) * (2 * l + 2) * (l + 1 + l).factorial) := by
          unfold c
          rw [show l + 2 - (l + 1) = 1 by omega, show l + 2 + (l + 1) = (l + 1 + l) + 1 + 1 by ring, fact_succ (l + 1 + l + 1), fact_succ (l + 1 + l)]
          simp only [Nat.factorial_one, Nat.cast_one]
          push_cast
          congr 1; ring
        have c2 : c (l + 1) (l + 1) = 1 / ((2 * l + 2) * (l + 1 + l).factorial) := by
          unfold c
          rw [show l + 1 - (l + 1) = 0 by omega, show l + 1 + (l + 1) = (l + 1 + l) + 1 by ring, fact_succ (l + 1 + l)]
          simp only [Nat.factorial_zero, Nat.cast_one]
          push_cast
          congr 1; ring
        have c3 : c (l + 1) l = 1 / (l + 1 + l).factorial := by
          unfold c
          rw [show l + 1 - l = 1 by omega]
          simp
        unfold g
        rw [c1, c2, c3, k1, k2, k3, k4]
        field_simp
        ring
      · simp only [hTerm]
        rw [g_big l (l + 2) (by omega), g_big (l + 1) (l + 2) (by omega), g_big (l + 1) (l + 3) (by omega)]
        have ha := d_A (l + 1) (l + 1) a
        have hb := d_A (l + 1) (l + 1) b
        rw [d_big (l + 1) (l + 1 + 1) (by omega)] at ha
        rw [d_big (l + 1) (l + 1 + 1) (by omega)] at hb
        push_cast at ha hb
        have f := fact_pos (l + 1 + (l + 1))
        have c1 : c (l + 2) (l + 2) = 1 / ((2 * l + 4) * (2 * l + 3) * (l + 1 + (l + 1)).factorial) := by
          unfold c
          rw [show l + 2 - (l + 2) = 0 by omega, show l + 2 + (l + 2) = (l + 1 + (l + 1)) + 1 + 1 by ring, fact_succ (l + 1 + (l + 1) + 1),
            fact_succ (l + 1 + (l + 1))]
          simp only [Nat.factorial_zero, Nat.cast_one]
          push_cast
          congr 1; ring
        have c2 : c (l + 1) (l + 1) = 1 / (l + 1 + (l + 1)).factorial := by
          unfold c
          rw [show l + 1 - (l + 1) = 0 by omega]
          simp
        unfold g
        rw [c1, c2, ha, hb]
        field_simp
        ring
  · -- the generic case
    obtain ⟨k, rfl⟩ : ∃ k, l = k + m := ⟨l - m, by omega⟩
    cases m with
    | zero =>
      simp only [hTerm, Nat.add_zero]
      have a1 := d_R1 (k + 1) 0 a
      have b1 := d_R1 (k + 1) 0 b
      have a2 := d_R2 k 0 a
      have b2 := d_R2 k 0 b
      push_cast at a1 b1 a2 b2
      have kp : (0 : ℝ) ≤ k := Nat.cast_nonneg k
      have c0 : ∀ n, c n 0 = 1 := by
        intro n
        unfold c
        simp only [Nat.sub_zero, Nat.add_zero]
        exact div_self (fact_pos n).ne'
      have c1 : c (k + 1) 1 = 1 / ((k + 2) * (k + 1)) := by
        unfold c
        rw [show k + 1 - 1 = k by omega, fact_succ (k + 1), fact_succ k]
        have := fact_pos k
        push_cast
        field_simp
        ring
      have k1 : d (k + 2) 0 a = ((k + 2) * a * d (k + 1) 0 a - (1 - a ^ 2) * d (k + 1) 1 a) / (k + 2) := by
        rw [eq_div_iff (by positivity)]; linear_combination a1
      have k2 : d (k + 2) 0 b = ((k + 2) * b * d (k + 1) 0 b - (1 - b ^ 2) * d (k + 1) 1 b) / (k + 2) := by
        rw [eq_div_iff (by positivity)]; linear_combination b1
      have k3 : d k 0 a = ((1 - a ^ 2) * d (k + 1) 1 a + (k + 1) * a * d (k + 1) 0 a) / (k + 1) := by
        rw [eq_div_iff (by positivity)]; linear_combination a2
      have k4 : d k 0 b = ((1 - b ^ 2) * d (k + 1) 1 b + (k + 1) * b * d (k + 1) 0 b) / (k + 1) := by
        rw [eq_div_iff (by positivity)]; linear_combination b2
      unfold g
      rw [c0, c0, c0, c1, k1, k2, k3, k4]
      field_simp
      ring
    | succ n =>
      simp only [hTerm]
      have a1 := d_R1 (k + n + 2) (n + 1) a
      have b1 := d_R1 (k + n + 2) (n + 1) b
      have a2 := d_R2 (k + n + 1) (n + 1) a
      have b2 := d_R2 (k + n + 1) (n + 1) b
      have a3 := d_R3 (k + n + 2) n a
      have b3 := d_R3 (k + n + 2) n b
      push_cast at a1 b1 a2 b2 a3 b3
      have kp : (0 : ℝ) ≤ k := Nat.cast_nonneg k
      have np : (0 : ℝ) ≤ n := Nat.cast_nonneg n
      have f1 := fact_pos k
      have f2 := fact_pos (k + 2 * n + 2)
      have h1 : ((k + 1).factorial : ℝ) = (k + 1) * k.factorial := fact_succ k
      have h2 : ((k + 2).factorial : ℝ) = (k + 2) * ((k + 1) * k.factorial) := by
        rw [fact_succ (k + 1), fact_succ k]; push_cast; ring
      have h3 : ((k + 2 * n + 3).factorial : ℝ) = (k + 2 * n + 3) * (k + 2 * n + 2).factorial := by
        rw [fact_succ (k + 2 * n + 2)]; push_cast; ring
      have h4 : ((k + 2 * n + 4).factorial : ℝ) = (k + 2 * n + 4) * ((k + 2 * n + 3) * (k + 2 * n + 2).factorial) := by
        rw [fact_succ (k + 2 * n + 3), h3]; push_cast; ring
      have c1 : c (k + (n + 1)) (n + 1) = k.factorial / (k + 2 * n + 2).factorial := by
        unfold c
        rw [show k + (n + 1) - (n + 1) = k by omega, show k + (n + 1) + (n + 1) = k + 2 * n + 2 by ring]
      have c2 : c (k + (n + 1) + 1) (n + 1) = (k + 1) * k.factorial / ((k + 2 * n + 3) * (k + 2 * n + 2).factorial) := by
        unfold c
        rw [show k + (n + 1) + 1 - (n + 1) = k + 1 by omega, show k + (n + 1) + 1 + (n + 1) = k + 2 * n + 3 by ring, h1, h3]
      have c3 : c (k + (n + 1) + 1) n = (k + 2) * ((k + 1) * k.factorial) / (k + 2 * n + 2).factorial := by
        unfold c
        rw [show k + (n + 1) + 1 - n = k + 2 by omega, show k + (n + 1) + 1 + n = k + 2 * n + 2 by ring, h2]
      have c4 : c (k + (n + 1) + 1) (n + 2) = k.factorial / ((k + 2 * n + 4) * ((k + 2 * n + 3) * (k + 2 * n + 2).factorial)) := by
        unfold c
        rw [show k + (n + 1) + 1 - (n + 2) = k by omega, show k + (n + 1) + 1 + (n + 2) = k + 2 * n + 4 by ring, h4]
      have c5 : c (k + (n + 1) + 2) (n + 1) =
          (k + 2) * ((k + 1) * k.factorial) / ((k + 2 * n + 4) * ((k + 2 * n + 3) * (k + 2 * n + 2).factorial)) := by
        unfold c
        rw [show k + (n + 1) + 2 - (n + 1) = k + 2 by omega, show k + (n + 1) + 2 + (n + 1) = k + 2 * n + 4 by ring, h2, h4]
      have e1 : k + (n + 1) = k + n + 1 := by ring
      rw [e1] at c1 c2 c3 c4 c5 ⊢
      have k1 : ∀ x, (k + 2) * d (k + n + 3) (n + 1) x =
          (k + 2 * n + 4) * x * d (k + n + 2) (n + 1) x - (1 - x ^ 2) * d (k + n + 2) (n + 2) x → d (k + n + 1 + 2) (n + 1) x =
          ((k + 2 * n + 4) * x * d (k + n + 2) (n + 1) x - (1 - x ^ 2) * d (k + n + 2) (n + 2) x) / (k + 2) := by
        intro x hx
        rw [eq_div_iff (by positivity), ← hx]; ring
      have k2 : ∀ x, (k + 2 * n + 3) * d (k + n + 1) (n + 1) x =
          (1 - x ^ 2) * d (k + n + 2) (n + 2) x + (k + 1) * x * d (k + n + 2) (n + 1) x → d (k + n + 1) (n + 1) x =
          ((1 - x ^ 2) * d (k + n + 2) (n + 2) x + (k + 1) * x * d (k + n + 2) (n + 1) x) / (k + 2 * n + 3) := by
        intro x hx
        rw [eq_div_iff (by positivity), ← hx]; ring
      have k3 : ∀ x, (k + 2 * n + 3) * (k + 2) * d (k + n + 2) n x =
          2 * (n + 1) * x * d (k + n + 2) (n + 1) x - (1 - x ^ 2) * d (k + n + 2) (n + 2) x → d (k + n + 1 + 1) n x =
          (2 * (n + 1) * x * d (k + n + 2) (n + 1) x - (1 - x ^ 2) * d (k + n + 2) (n + 2) x) / ((k + 2 * n + 3) * (k + 2)) := by
        intro x hx
        rw [eq_div_iff (by positivity), ← hx]; ring
      unfold g
      rw [c1, c2, c3, c4, c5, k1 a (by linear_combination a1), k1 b (by linear_combination b1), k2 a (by linear_combination a2),
        k2 b (by linear_combination b2), k3 a (by linear_combination a3), k3 b (by linear_combination b3)]
      rw [show k + n + 1 + 1 = k + n + 2 by ring]
      generalize d (k + n + 2) (n + 1) a = p
      generalize d (k + n + 2) (n + 1) b = p'
      generalize d (k + n + 2) (n + 2) a = q
      generalize d (k + n + 2) (n + 2) b = q'
      generalize (k.factorial : ℝ) = F at *
      generalize ((k + 2 * n + 2).factorial : ℝ) = G at *
      push_cast
      field_simp
      ring

/-- The terms of `m` and `-m` together. -/
def e (m : Nat) : ℝ := if m = 0 then 1 else 2

theorem hTerm_sum (l : Nat) (a b : ℝ) (t : Nat → ℝ) (h0 : t 0 = 1)
    (ht : ∀ m, t 1 * t (m + 1) = (t (m + 2) + (1 - a ^ 2) * (1 - b ^ 2) * t m) / 2) (n : Nat) :
    t 1 * ∑ m ∈ Finset.range (n + 1), e m * g l m a b * t m =
      (∑ m ∈ Finset.range (n + 1), e m * hTerm l m a b * t m) + g l n a b * t (n + 1) -
        (1 - a ^ 2) * (1 - b ^ 2) * g l (n + 1) a b * t n := by
  induction n with
  | zero => simp [e, hTerm, h0]; ring
  | succ n ih =>
    rw [Finset.sum_range_succ, mul_add, ih, Finset.sum_range_succ _ (n + 1)]
    have := ht n
    have e2 : e (n + 1) = 2 := by simp [e]
    rw [e2]
    simp only [hTerm]
    linear_combination 2 * g l (n + 1) a b * this

/-- The addition theorem, for any sequence with the recurrence of `s^m cos(m phi)`. -/
theorem legendre_addition (a b : ℝ) (t : Nat → ℝ) (h0 : t 0 = 1)
    (ht : ∀ m, t 1 * t (m + 1) = (t (m + 2) + (1 - a ^ 2) * (1 - b ^ 2) * t m) / 2) (n : Nat) (l : Nat) (hl : l < n) :
    (legendre l).eval (a * b + t 1) = ∑ m ∈ Finset.range (n + 1), e m * g l m a b * t m := by
  have hd0 : ∀ x, d 0 0 x = 1 := by intro x; simp [d, dleg, legendre]
  have hd1 : ∀ x, d 1 0 x = x := by intro x; simp [d, dleg, legendre]
  have hd11 : ∀ x, d 1 1 x = 1 := by intro x; simp [d, dleg, legendre]
  induction l using Nat.twoStepInduction with
  | zero =>
    rw [Finset.sum_eq_single 0]
    · simp [e, g, c, hd0, legendre, h0]
    · intro m _ hm
      rw [g_big 0 m (by omega)]; ring
    · simp
  | one =>
    obtain ⟨k, rfl⟩ : ∃ k, n = k + 1 := ⟨n - 1, by omega⟩
    rw [Finset.sum_range_succ', Finset.sum_range_succ']
    rw [Finset.sum_eq_zero]
    · simp [e, g, c, hd1, hd11, legendre, h0]; ring
    · intro m _
      rw [g_big 1 (m + 1 + 1) (by omega)]; ring
  | more l ih1 ih2 =>
    have h1 := ih1 (by omega)
    have h2 := ih2 (by omega)
    have hr := congrArg (eval (a * b + t 1)) (legendre_rec l)
    simp only [eval_mul, eval_sub, eval_C, eval_X] at hr
    rw [h1, h2] at hr
    have hs := hTerm_sum (l + 1) a b t h0 ht n
    rw [g_big (l + 1) n (by omega), g_big (l + 1) (n + 1) (by omega)] at hs
    have hsum : (l + 2) * ∑ m ∈ Finset.range (n + 1), e m * g (l + 2) m a b * t m +
        (l + 1) * ∑ m ∈ Finset.range (n + 1), e m * g l m a b * t m =
        (2 * l + 3) * (a * b * ∑ m ∈ Finset.range (n + 1), e m * g (l + 1) m a b * t m +
          ∑ m ∈ Finset.range (n + 1), e m * hTerm (l + 1) m a b * t m) := by
      simp only [Finset.mul_sum, mul_add, ← Finset.sum_add_distrib]
      apply Finset.sum_congr rfl
      intro m _
      have := g_rec l m a b
      linear_combination e m * t m * this
    have hpos : ((l : ℝ) + 2) ≠ 0 := by positivity
    apply mul_left_cancel₀ hpos
    linear_combination hr - hsum + (2 * l + 3) * hs

end NBK.Ylm
