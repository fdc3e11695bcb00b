import Verif.Pkmu.Model
import Mathlib.Algebra.Polynomial.Derivative
import Mathlib.Algebra.Polynomial.Eval.Degree
import Mathlib.Tactic.LinearCombination
import Mathlib.Tactic.FieldSimp
import Mathlib.Tactic.Linarith
import Mathlib.Tactic.Ring

/-! # Legendre polynomials as polynomials -/
set_option linter.unusedSimpArgs false

namespace NBK.Pkmu
open Polynomial

/-- The polynomial of a list of coefficients. -/
noncomputable def toPoly : List ℚ → ℚ[X]
  | [] => 0
  | c :: p => C c + X * toPoly p

theorem toPoly_padd (p q : List ℚ) : toPoly (padd p q) = toPoly p + toPoly q := by
  induction p generalizing q with
  | nil => simp [padd, toPoly]
  | cons a p ih =>
    cases q with
    | nil => simp [padd, toPoly]
    | cons b q => simp only [padd, toPoly, ih, C_add]; ring

theorem toPoly_pscale (c : ℚ) (p : List ℚ) : toPoly (pscale c p) = C c * toPoly p := by
  induction p with
  | nil => simp [pscale, toPoly]
  | cons a p ih =>
    have : pscale c (a :: p) = (c * a) :: pscale c p := rfl
    rw [this]; simp only [toPoly, ih, C_mul]; ring

/-- An antiderivative of `x^i p`. -/
noncomputable def anti : Nat → List ℚ → ℚ[X]
  | _, [] => 0
  | i, c :: p => C (c / (i + 1)) * X ^ (i + 1) + anti (i + 1) p

theorem derivative_anti (i : Nat) (p : List ℚ) : derivative (anti i p) = X ^ i * toPoly p := by
  induction p generalizing i with
  | nil => simp [anti, toPoly]
  | cons c p ih =>
    have h : (i : ℚ) + 1 ≠ 0 := by positivity
    simp only [anti, toPoly, derivative_add, ih, derivative_C_mul, derivative_X_pow]
    have : C (c / (↑i + 1)) * (C ((i + 1 : ℕ) : ℚ) * X ^ (i + 1 - 1)) = C c * X ^ i := by
      rw [← mul_assoc, ← C_mul]
      congr 2
      push_cast; field_simp
    rw [this]; ring

theorem eval_anti (a b : ℚ) (i : Nat) (p : List ℚ) : (anti i p).eval b - (anti i p).eval a = integFrom a b i p := by
  induction p generalizing i with
  | nil => simp [anti, integFrom]
  | cons c p ih =>
    simp only [anti, integFrom, eval_add, eval_mul, eval_C, eval_pow, eval_X, ← ih]
    ring

/-- The integral is the difference of any antiderivative. -/
theorem integ_eq (p : List ℚ) (Q : ℚ[X]) (hQ : derivative Q = toPoly p) (a b : ℚ) : integ p a b = Q.eval b - Q.eval a := by
  have hd : derivative (Q - anti 0 p) = 0 := by rw [derivative_sub, hQ, derivative_anti]; simp
  obtain ⟨c, hc⟩ : ∃ c, Q - anti 0 p = C c :=
    ⟨_, eq_C_of_natDegree_eq_zero (natDegree_eq_zero_of_derivative_eq_zero hd)⟩
  have : Q = anti 0 p + C c := by rw [← hc]; ring
  rw [this, integ, ← eval_anti]
  simp

/-- The recursion for the polynomials. -/
theorem legendre_rec (n : Nat) : C ((n : ℚ) + 2) * toPoly (legendre (n + 2)) =
    C (2 * (n : ℚ) + 3) * (X * toPoly (legendre (n + 1))) - C ((n : ℚ) + 1) * toPoly (legendre n) := by
  have h : (n : ℚ) + 2 ≠ 0 := by positivity
  have e : toPoly (legendre (n + 2)) = C ((2 * (n : ℚ) + 3) / (n + 2)) * (X * toPoly (legendre (n + 1))) +
      C (-((n : ℚ) + 1) / (n + 2)) * toPoly (legendre n) := by
    show toPoly (padd _ _) = _
    rw [toPoly_padd, toPoly_pscale, toPoly_pscale]
    simp [toPoly]
  rw [e, mul_add, ← mul_assoc (C ((n : ℚ) + 2)), ← mul_assoc (C ((n : ℚ) + 2)), ← C_mul, ← C_mul]
  have h1 : ((n : ℚ) + 2) * ((2 * n + 3) / (n + 2)) = 2 * n + 3 := by field_simp
  have h2 : ((n : ℚ) + 2) * (-(n + 1) / (n + 2)) = -(n + 1) := by field_simp
  rw [h1, h2, C_neg]; ring

/-- The two relations between a Legendre polynomial and derivatives. -/
theorem legendre_deriv (n : Nat) :
    derivative (toPoly (legendre (n + 1))) - X * derivative (toPoly (legendre n)) = C ((n : ℚ) + 1) * toPoly (legendre n) ∧
    X * derivative (toPoly (legendre (n + 1))) - derivative (toPoly (legendre n)) =
      C ((n : ℚ) + 1) * toPoly (legendre (n + 1)) := by
  induction n with
  | zero => simp [legendre, toPoly]
  | succ n ih =>
    obtain ⟨ha, hb⟩ := ih
    have hr := legendre_rec n
    have hd := congrArg derivative hr
    simp only [derivative_mul, derivative_C, derivative_X, derivative_sub, zero_mul, zero_add, one_mul] at hd
    have h2 : C ((n : ℚ) + 2) ≠ (0 : ℚ[X]) := by
      rw [Ne, C_eq_zero]; positivity
    have c1 : C ((n : ℚ) + 2) = C ((n : ℚ) + 1) + 1 := by rw [← C_1, ← C_add]; congr 1; ring
    have c2 : C (2 * (n : ℚ) + 3) = 2 * C ((n : ℚ) + 1) + 1 := by
      have : (2 : ℚ[X]) = C 2 := rfl
      rw [this, ← C_1, ← C_mul, ← C_add]; congr 1; ring
    have c3 : C (((n + 1 : Nat) : ℚ) + 1) = C ((n : ℚ) + 1) + 1 := by rw [← C_1, ← C_add]; congr 1; push_cast; ring
    rw [c1, c2] at hr hd
    rw [c1] at h2
    rw [c3]
    generalize C ((n : ℚ) + 1) = m at *
    have a1 : derivative (toPoly (legendre (n + 2))) - X * derivative (toPoly (legendre (n + 1))) =
        (m + 1) * toPoly (legendre (n + 1)) := by
      apply mul_left_cancel₀ h2
      linear_combination hd + m * hb
    refine ⟨a1, ?_⟩
    apply mul_left_cancel₀ h2
    linear_combination (m + 1) * X * a1 + (m + 1) * X * hb - (m + 1) * ha - (m + 1) * hr

/-- The derivative of the difference of two polynomials is a multiple of the one in between. -/
theorem legendre_anti (n : Nat) : derivative (toPoly (legendre (n + 2)) - toPoly (legendre n)) =
    C (2 * (n : ℚ) + 3) * toPoly (legendre (n + 1)) := by
  have h1 := (legendre_deriv (n + 1)).1
  have h2 := (legendre_deriv n).2
  have c : C (2 * (n : ℚ) + 3) = C (((n + 1 : Nat) : ℚ) + 1) + C ((n : ℚ) + 1) := by rw [← C_add]; congr 1; push_cast; ring
  rw [derivative_sub, c]
  linear_combination h1 + h2

theorem legendre_one (n : Nat) : (toPoly (legendre n)).eval 1 = 1 := by
  induction n using Nat.twoStepInduction with
  | zero => simp [legendre, toPoly]
  | one => simp [legendre, toPoly]
  | more n h0 h1 =>
    have h := congrArg (eval 1) (legendre_rec n)
    simp only [eval_mul, eval_C, eval_sub, eval_X, h0, h1] at h
    have h2 : (n : ℚ) + 2 ≠ 0 := by positivity
    apply mul_left_cancel₀ h2
    linear_combination h

theorem legendre_neg_one (n : Nat) : (toPoly (legendre n)).eval (-1) = (-1) ^ n := by
  induction n using Nat.twoStepInduction with
  | zero => simp [legendre, toPoly]
  | one => simp [legendre, toPoly]
  | more n h0 h1 =>
    have h := congrArg (eval (-1)) (legendre_rec n)
    simp only [eval_mul, eval_C, eval_sub, eval_X, h0, h1] at h
    have h2 : (n : ℚ) + 2 ≠ 0 := by positivity
    apply mul_left_cancel₀ h2
    rw [h]; ring

theorem legendre_zero_odd (n : Nat) : (toPoly (legendre (2 * n + 1))).eval 0 = 0 := by
  induction n with
  | zero => simp [legendre, toPoly]
  | succ n ih =>
    have h := congrArg (eval 0) (legendre_rec (2 * n + 1))
    simp only [eval_mul, eval_C, eval_sub, eval_X, ih, zero_mul, mul_zero, sub_zero] at h
    have h2 : ((2 * n + 1 : Nat) : ℚ) + 2 ≠ 0 := by positivity
    exact (mul_eq_zero.mp h).resolve_left h2

/-- The integral of a Legendre polynomial of positive order. -/
theorem integ_legendre (n : Nat) (a b : ℚ) : (2 * (n : ℚ) + 3) * integ (legendre (n + 1)) a b =
    ((toPoly (legendre (n + 2))).eval b - (toPoly (legendre n)).eval b) -
    ((toPoly (legendre (n + 2))).eval a - (toPoly (legendre n)).eval a) := by
  have h3 : (2 * (n : ℚ) + 3) ≠ 0 := by positivity
  have hQ : derivative (C (1 / (2 * (n : ℚ) + 3)) * (toPoly (legendre (n + 2)) - toPoly (legendre n))) =
      toPoly (legendre (n + 1)) := by
    rw [derivative_C_mul, legendre_anti, ← mul_assoc, ← C_mul]
    have : 1 / (2 * (n : ℚ) + 3) * (2 * n + 3) = 1 := by field_simp
    rw [this]; simp
  rw [integ_eq _ _ hQ]
  simp only [eval_mul, eval_C, eval_sub]
  field_simp

theorem integ_full (n : Nat) : integ (legendre (n + 1)) (-1) 1 = 0 := by
  have h3 : (2 * (n : ℚ) + 3) ≠ 0 := by positivity
  have h := integ_legendre n (-1) 1
  simp only [legendre_one, legendre_neg_one] at h
  apply (mul_eq_zero.mp (h.trans _)).resolve_left h3
  ring

theorem integ_half (n : Nat) : integ (legendre (2 * (n + 1))) 0 1 = 0 := by
  have h3 : (2 * ((2 * n + 1 : Nat) : ℚ) + 3) ≠ 0 := by positivity
  have h := integ_legendre (2 * n + 1) 0 1
  have e : 2 * n + 1 + 2 = 2 * (n + 1) + 1 := by ring
  rw [e] at h
  simp only [legendre_one, legendre_zero_odd] at h
  apply (mul_eq_zero.mp (h.trans _)).resolve_left h3
  ring

theorem integ_zero (a b : ℚ) : integ (legendre 0) a b = b - a := by simp [integ, legendre, integFrom]

/-- Integrals over adjacent intervals add up. -/
theorem integ_add (p : List ℚ) (a b c : ℚ) : integ p a b + integ p b c = integ p a c := by
  have h : derivative (anti 0 p) = toPoly p := by rw [derivative_anti]; simp
  rw [integ_eq p _ h, integ_eq p _ h, integ_eq p _ h]; ring

/-- The value of a multipole in a bin. -/
def value (p : Poles) (ell j : Nat) : ℚ := ((p.power.lookup ell).getD []).getD j 0

theorem foldl_zip (f : Nat → List ℚ) (j : Nat) (l : List Nat) (acc : List ℚ) (hj : j < acc.length)
    (h : ∀ e ∈ l, (f e).length = acc.length) :
    (l.foldl (fun a e => List.zipWith (· + ·) a (f e)) acc)[j]? = some (acc.getD j 0 + (l.map fun e => (f e).getD j 0).sum) := by
  induction l generalizing acc with
  | nil => simp [List.getElem?_eq_getElem hj]
  | cons e l ih =>
    have he : (f e).length = acc.length := h e (by simp)
    have hl : (List.zipWith (· + ·) acc (f e)).length = acc.length := by simp [he]
    rw [List.foldl_cons, ih _ (by rw [hl]; exact hj) (fun x hx => by rw [hl]; exact h x (by simp [hx]))]
    have hj' : j < (f e).length := by omega
    simp only [List.map_cons, List.sum_cons, Option.some.injEq]
    have : (List.zipWith (· + ·) acc (f e)).getD j 0 = acc.getD j 0 + (f e).getD j 0 := by
      simp [List.getD_eq_getElem?_getD, List.getElem?_zipWith, List.getElem?_eq_getElem hj, List.getElem?_eq_getElem hj']
    rw [this]; ring

/-- The power in a bin of a wedge. -/
theorem wedge_get (p : Poles) (maxEll : Nat) (lo hi : ℚ) (j : Nat) (hj : j < p.k.length)
    (h : ∀ e ∈ ells maxEll, ∃ v, p.power.lookup e = some v ∧ v.length = p.k.length) :
    (wedge p maxEll lo hi)[j]? = some ((ells maxEll).map fun e => coefficient e lo hi * value p e j).sum := by
  unfold wedge
  rw [foldl_zip (fun e => ((p.power.lookup e).getD []).map fun v => coefficient e lo hi * v) j]
  · congr 1
    have : (List.replicate p.k.length (0 : ℚ)).getD j 0 = 0 := by
      simp [List.getD_eq_getElem?_getD, List.getElem?_replicate, hj]
    rw [this, zero_add]
    congr 1
    apply List.map_congr_left
    intro e he
    obtain ⟨v, hv, hl⟩ := h e he
    have hjv : j < v.length := by omega
    simp [value, hv, List.getD_eq_getElem?_getD, List.getElem?_eq_getElem hjv]
  · simpa using hj
  · intro e he
    obtain ⟨v, hv, hl⟩ := h e he
    simp [hv, hl]

theorem mem_ells (maxEll e : Nat) : e ∈ ells maxEll ↔ e % 2 = 0 ∧ e ≤ maxEll := by
  simp only [ells, List.mem_map, List.mem_range]
  constructor
  · rintro ⟨i, hi, rfl⟩; omega
  · rintro ⟨h1, h2⟩; exact ⟨e / 2, by omega, by omega⟩

theorem toPkmu_eq (p : Poles) (muEdges : List ℚ) (maxEll : Nat)
    (h : ∀ e ∈ ells maxEll, (p.power.lookup e).isSome) :
    toPkmu p muEdges maxEll = .ok ((muEdges.zip muEdges.tail).map fun m =>
      List.zipWith (fun v k => ⟨v, k, 1 / 2 * (m.2 + m.1)⟩) (wedge p maxEll m.1 m.2) p.k) := by
  unfold toPkmu
  rw [if_neg]
  simp only [List.any_eq_true, not_exists, not_and, Bool.not_eq_true]
  intro e he
  have := h e he
  cases hx : p.power.lookup e <;> simp_all

/-- The bin of a wedge. -/
theorem toPkmu_get (p : Poles) (muEdges : List ℚ) (maxEll i j : Nat) (lo hi k : ℚ) (cols : List (List Bin))
    (h : ∀ e ∈ ells maxEll, ∃ v, p.power.lookup e = some v ∧ v.length = p.k.length)
    (hr : toPkmu p muEdges maxEll = .ok cols) (hlo : muEdges[i]? = some lo) (hhi : muEdges[i + 1]? = some hi)
    (hk : p.k[j]? = some k) :
    ∃ col, cols[i]? = some col ∧ col.length = p.k.length ∧
      col[j]? = some ⟨((ells maxEll).map fun e => coefficient e lo hi * value p e j).sum, k, 1 / 2 * (hi + lo)⟩ := by
  rw [toPkmu_eq p muEdges maxEll (fun e he => by obtain ⟨v, hv, _⟩ := h e he; simp [hv])] at hr
  injection hr with hr
  subst hr
  have hj : j < p.k.length := (List.getElem?_eq_some_iff.mp hk).1
  have hw := wedge_get p maxEll lo hi j hj h
  refine ⟨List.zipWith (fun v k => ⟨v, k, 1 / 2 * (hi + lo)⟩) (wedge p maxEll lo hi) p.k, ?_, ?_, ?_⟩
  · simp [List.getElem?_map, List.getElem?_zip_eq_some, List.zip, List.getElem?_zipWith, hlo, hhi]
  · have hl : p.k.length ≤ (wedge p maxEll lo hi).length := by
      by_contra hc
      have := wedge_get p maxEll lo hi (wedge p maxEll lo hi).length (by omega) h
      simp at this
    simp [hl]
  · simp [List.getElem?_zipWith, hw, hk]

end NBK.Pkmu
