import Verif.Growth.Model
import Mathlib.Analysis.SpecialFunctions.Log.Deriv
import Mathlib.Analysis.SpecialFunctions.Sqrt
import Mathlib.Algebra.Order.Field.Basic
import Mathlib.Algebra.Order.Ring.Rat
import Mathlib.Tactic.FieldSimp
import Mathlib.Tactic.Linarith
import Mathlib.Tactic.LinearCombination
import Mathlib.Tactic.Ring

/-! # The growth functions -/

set_option linter.unusedSimpArgs false

namespace NBK.Growth

section grid
variable {K : Type} [Field K] [LinearOrder K] [IsStrictOrderedRing K]

omit [IsStrictOrderedRing K] in
/-- The interpolation returns the given value at every node. -/
theorem interp_node (g : K → K) : ∀ (l : List K), l.Pairwise (· ≤ ·) → ∀ x ∈ l, interp (l.map fun t => (t, g t)) x = g x
  | [], _, _, h => by cases h
  | [a], _, x, h => by
    rw [List.mem_singleton] at h
    subst h
    rfl
  | a :: b :: l, hs, x, h => by
    have ha : ∀ y ∈ b :: l, a ≤ y := (List.pairwise_cons.1 hs).1
    have hs' := (List.pairwise_cons.1 hs).2
    simp only [List.map_cons, interp]
    by_cases hx : x < b
    · have hxa : x = a := by
        rcases List.mem_cons.1 h with h | h
        · exact h
        · rcases List.mem_cons.1 h with h | h
          · exact absurd hx (by rw [h]; exact lt_irrefl _)
          · exact absurd hx (not_lt.2 ((List.pairwise_cons.1 hs').1 x h))
      rw [if_pos hx, if_pos (le_of_eq hxa), hxa]
    · rw [if_neg hx]
      have hm : x ∈ b :: l := by
        rcases List.mem_cons.1 h with h | h
        · have : x = b := le_antisymm (h ▸ ha b List.mem_cons_self) (not_lt.1 hx)
          rw [this]; exact List.mem_cons_self
        · exact h
      exact interp_node g (b :: l) hs' x hm

omit [IsStrictOrderedRing K] in
/-- Between two neighbouring nodes the interpolation is the chord. -/
theorem interp_segment (l1 l2 : List (K × K)) (p q : K × K) (hs : (l1 ++ p :: q :: l2).Pairwise (fun a b => a.1 < b.1)) (x : K) (h1 : p.1 < x) (h2 : x < q.1) :
    interp (l1 ++ p :: q :: l2) x = p.2 + (q.2 - p.2) / (q.1 - p.1) * (x - p.1) := by
  induction l1 with
  | nil => simp only [List.nil_append, interp, if_pos h2, if_neg (not_le.2 h1)]
  | cons a l1 ih =>
    have ih := ih (List.pairwise_cons.1 hs).2
    cases l1 with
    | nil =>
      simp only [List.cons_append, List.nil_append] at ih ⊢
      rw [interp, if_neg (not_lt.2 h1.le), ih]
    | cons b l1 =>
      have hb : b.1 < x := by
        have := (List.pairwise_cons.1 (List.pairwise_cons.1 hs).2).1 p (by simp)
        exact this.trans h1
      simp only [List.cons_append] at ih ⊢
      rw [interp, if_neg (not_lt.2 hb.le), ih]

/-- The nearest element to an element of the list is that element. -/
theorem nearest_mem (x : K) : ∀ (l : List K), x ∈ l → nearest x l = some x
  | [], h => by cases h
  | a :: l, h => by
    simp only [nearest]
    by_cases hl : x ∈ l
    · rw [nearest_mem x l hl]
      simp only [sub_self, abs_zero]
      split
      · next hle =>
        have : a - x = 0 := abs_eq_zero.1 (le_antisymm hle (abs_nonneg _))
        rw [sub_eq_zero.1 this]
      · rfl
    · have hx : x = a := by
        rcases List.mem_cons.1 h with h | h
        · exact h
        · exact absurd h hl
      subst hx
      cases hn : nearest x l with
      | none => rfl
      | some b => simp

omit [IsStrictOrderedRing K] in
/-- The grid is sorted and contains the requested points and the point of the normalization. -/
theorem grid_spec (start : K) (dflt : List K) (a : List K) (norm : K) :
    (gridA start dflt (some a) norm).Pairwise (· ≤ ·) ∧ norm ∈ gridA start dflt (some a) norm ∧
      (∀ x ∈ a, x ∈ gridA start dflt (some a) norm) ∧
      ∀ x ∈ gridA start dflt (some a) norm, x = norm ∨ x ∈ a ∨ x = start := by
  have key : ∀ l : List K, l.Pairwise (· ≤ ·) → (addStart start l).Pairwise (· ≤ ·) ∧ (∀ x ∈ l, x ∈ addStart start l) ∧
      ∀ x ∈ addStart start l, x ∈ l ∨ x = start := by
    intro l hl
    cases l with
    | nil => simp [addStart]
    | cons y t =>
      simp only [addStart]
      split
      · next hy =>
        refine ⟨List.pairwise_cons.2 ⟨?_, hl⟩, fun x hx => List.mem_cons_of_mem _ hx, ?_⟩
        · intro z hz
          rcases List.mem_cons.1 hz with hz | hz
          · rw [hz]; exact le_of_lt hy
          · exact le_trans (le_of_lt hy) ((List.pairwise_cons.1 hl).1 z hz)
        · intro x hx
          rcases List.mem_cons.1 hx with hx | hx
          · exact .inr hx
          · exact .inl hx
      · exact ⟨hl, fun x hx => hx, fun x hx => .inl hx⟩
  obtain ⟨h1, h2, h3⟩ := key _ (List.pairwise_insertionSort (· ≤ ·) (if norm ∈ a then a else norm :: a))
  have hm : ∀ x, x ∈ (if norm ∈ a then a else norm :: a) ↔ x = norm ∨ x ∈ a := by
    intro x
    split
    · next h => exact ⟨.inr, fun h' => h'.elim (fun e => e ▸ h) id⟩
    · exact List.mem_cons
  refine ⟨h1, ?_, ?_, ?_⟩
  · exact h2 _ ((List.mem_insertionSort _).2 ((hm _).2 (.inl rfl)))
  · intro x hx
    exact h2 _ ((List.mem_insertionSort _).2 ((hm _).2 (.inr hx)))
  · intro x hx
    rcases h3 x hx with h | h
    · rcases (hm x).1 ((List.mem_insertionSort _).1 h) with h | h
      · exact .inl h
      · exact .inr (.inl h)
    · exact .inr (.inr h)

/-- The values a growth function of a given order should have: the solution, its derivative and the right hand side of the equation. -/
def exact1 (y : K → State K) (ode : State K → K → State K) (order : Nat) (x : K) : K :=
  match order with
  | 0 => (y x).D1
  | 1 => (y x).F1
  | _ => (ode (y x) x).F1

/-- Same for the second order function. -/
def exact2 (y : K → State K) (ode : State K → K → State K) (order : Nat) (x : K) : K :=
  match order with
  | 0 => (y x).D2
  | 1 => (y x).F2
  | _ => (ode (y x) x).F2

omit [LinearOrder K] [IsStrictOrderedRing K] in
theorem zip_map_eq {α : Type} (l : List K) (f : K → α) (g : α → K) : l.zip ((l.map f).map g) = l.map fun t => (t, g (f t)) := by
  induction l with
  | nil => rfl
  | cons a l ih => simp only [List.map_cons, List.zip_cons_cons, ih]

/-- With given scale factors, at every one of them and at the normalization both functions and their two derivatives are the solution
divided by its value at the normalization. -/
theorem growth_exact_partial (log : K → K) (hlog : ∀ s t, 0 < s → s ≤ t → log s ≤ log t) (y : K → State K) (ode : State K → K → State K) (start : K)
    (hst : 0 < start) (dflt a : List K) (norm : K) (ha : ∀ t ∈ norm :: a, 0 < t) (x : K) (hx : x ∈ norm :: a) (order : Nat) :
    (init log y ode start dflt (some a) norm).D1 log x order = exact1 y ode order (log x) / (y (log norm)).D1 ∧
    (init log y ode start dflt (some a) norm).D2 log x order = exact2 y ode order (log x) / (y (log norm)).D2 := by
  obtain ⟨h1, h2, h3, h4⟩ := grid_spec start dflt a norm
  have hpos : ∀ t ∈ gridA start dflt (some a) norm, 0 < t := by
    intro t ht
    rcases h4 t ht with h | h | h
    · exact ha t (by simp [h])
    · exact ha t (by simp [h])
    · rw [h]; exact hst
  have hs : ((gridA start dflt (some a) norm).map log).Pairwise (· ≤ ·) := by
    rw [List.pairwise_map]
    exact List.Pairwise.imp_of_mem (fun hm _ h => hlog _ _ (hpos _ hm) h) h1
  have hxm : log x ∈ (gridA start dflt (some a) norm).map log := by
    rcases List.mem_cons.1 hx with h | h
    · rw [h]; exact List.mem_map_of_mem h2
    · exact List.mem_map_of_mem (h3 x h)
  have hn : nearest (log norm) ((gridA start dflt (some a) norm).map log) = some (log norm) := nearest_mem _ _ (List.mem_map_of_mem h2)
  constructor
  · simp only [Obj.D1, init, hn, Option.getD_some, zip_map_eq]
    rw [interp_node (fun t => col order ((y t).D1 / (y (log norm)).D1, (y t).F1 / (y (log norm)).D1,
      (ode (y t) t).F1 / (y (log norm)).D1)) _ hs _ hxm]
    rcases order with _ | _ | n <;> rfl
  · simp only [Obj.D2, init, hn, Option.getD_some, zip_map_eq]
    rw [interp_node (fun t => col order ((y t).D2 / (y (log norm)).D2, (y t).F2 / (y (log norm)).D2,
      (ode (y t) t).F2 / (y (log norm)).D2)) _ hs _ hxm]
    rcases order with _ | _ | n <;> rfl

/-- Both functions are one at the normalization. -/
theorem growth_normalized (log : K → K) (hlog : ∀ s t, 0 < s → s ≤ t → log s ≤ log t) (y : K → State K) (ode : State K → K → State K) (start : K)
    (hst : 0 < start) (dflt a : List K) (norm : K) (ha : ∀ t ∈ norm :: a, 0 < t) (h1 : (y (log norm)).D1 ≠ 0) (h2 : (y (log norm)).D2 ≠ 0) :
    (init log y ode start dflt (some a) norm).D1 log norm 0 = 1 ∧ (init log y ode start dflt (some a) norm).D2 log norm 0 = 1 := by
  obtain ⟨e1, e2⟩ := growth_exact_partial log hlog y ode start hst dflt a norm ha norm List.mem_cons_self 0
  rw [e1, e2]
  exact ⟨div_self h1, div_self h2⟩

omit [IsStrictOrderedRing K] in
/-- Past the last node the interpolation stays at the last value. -/
theorem interp_above : ∀ (l : List (K × K)) (hl : l ≠ []) (x : K), (∀ p ∈ l, p.1 ≤ x) → interp l x = (l.getLast hl).2
  | [], h, _, _ => absurd rfl h
  | [p], _, _, _ => rfl
  | p :: q :: l, _, x, h => by
    have hq : ¬ x < q.1 := not_lt.2 (h q (by simp))
    simp only [interp, if_neg hq]
    rw [interp_above (q :: l) (by simp) x (fun r hr => h r (List.mem_cons_of_mem _ hr))]
    simp

omit [IsStrictOrderedRing K] in
/-- After the last scale factor of the grid a growth function no longer grows: it has the value at the last grid point. -/
theorem growth_clamped (log : K → K) (o : Obj K) (s t : K) (order : Nat)
    (hs : ∀ u ∈ o.lna, u ≤ log s) (ht : ∀ u ∈ o.lna, u ≤ log t) : o.D1 log s order = o.D1 log t order := by
  unfold Obj.D1
  cases hz : o.lna.zip (o.v1.map (col order)) with
  | nil => rfl
  | cons p l =>
    have hm : ∀ q ∈ p :: l, q.1 ∈ o.lna := by
      intro q hq
      rw [← hz] at hq
      exact (List.of_mem_zip (a := q.1) (b := q.2) hq).1
    rw [interp_above _ (by simp) _ (fun q hq => hs _ (hm q hq)), interp_above _ (by simp) _ (fun q hq => ht _ (hm q hq))]

end grid

/-- A solution for the examples, in a variable that plays the part of the logarithm. -/
def exY (x : ℚ) : State ℚ := ⟨x + 2, 1, x ^ 2 + 1, 2 * x⟩

/-- A right hand side for the examples. -/
def exOde (y : State ℚ) (x : ℚ) : State ℚ := ⟨y.F1, y.D1 + x, y.F2, y.D2 + x⟩

/-- Given scale factors in no order, without the normalization. -/
example : (gridA (1 / 10) [] (some [3, 2]) (1 : ℚ)) = [1 / 10, 1, 2, 3] ∧
    (init id exY exOde (1 / 10) [] (some [3, 2]) (1 : ℚ)).D1 id 1 0 = 1 ∧
    (init id exY exOde (1 / 10) [] (some [3, 2]) (1 : ℚ)).D2 id 1 0 = 1 ∧
    (init id exY exOde (1 / 10) [] (some [3, 2]) (1 : ℚ)).D1 id 3 2 = 8 / 3 ∧
    (init id exY exOde (1 / 10) [] (some [3, 2]) (1 : ℚ)).D1 id 5 0 = 5 / 3 := by
  decide +kernel

/-- With the default grid the functions are normalized at the nearest point of the grid, which is not the normalization that was asked for:
the linear growth there is not one. -/
theorem default_grid_off : ∃ (dflt : List ℚ) (norm : ℚ), (∀ x ∈ dflt, x ≤ 1) ∧ norm < 1 ∧
    (init id exY exOde (1 / 10) dflt none norm).D1 id norm 0 ≠ 1 ∧
    (init id exY exOde (1 / 10) dflt (some []) norm).D1 id norm 0 = 1 :=
  ⟨[0, 1 / 2, 1], 3 / 5, by decide +kernel, by decide +kernel, by decide +kernel, by decide +kernel⟩

/-! ## Equations -/

/-- `efunc_prime` is the derivative of `efunc`. -/
theorem matter_prime (Om Ok Ol a : ℝ) (ha : a ≠ 0) (hE : 0 < Om / a ^ 3 + Ok / a ^ 2 + Ol) :
    HasDerivAt (matter Om Ok Ol).efunc ((matter Om Ok Ol).efuncPrime a) a := by
  have h1 : HasDerivAt (fun a : ℝ => Om / a ^ 3 + Ok / a ^ 2 + Ol) (-3 * Om / a ^ 4 + -2 * Ok / a ^ 3) a := by
    have e3 := ((hasDerivAt_pow 3 a).fun_inv (pow_ne_zero 3 ha)).const_mul Om
    have e2 := ((hasDerivAt_pow 2 a).fun_inv (pow_ne_zero 2 ha)).const_mul Ok
    have e := (e3.fun_add e2).add_const Ol
    have hfun : (fun a : ℝ => Om / a ^ 3 + Ok / a ^ 2 + Ol) = fun x => Om * (x ^ 3)⁻¹ + Ok * (x ^ 2)⁻¹ + Ol := by
      funext x; rw [div_eq_mul_inv, div_eq_mul_inv]
    rw [hfun]
    refine e.congr_deriv ?_
    field_simp
    push_cast
    ring
  have h2 := h1.sqrt hE.ne'
  show HasDerivAt (fun a => Real.sqrt (Om / a ^ 3 + Ok / a ^ 2 + Ol)) _ a
  refine h2.congr_deriv ?_
  symm
  show 1 / 2 / Real.sqrt (Om / a ^ 3 + Ok / a ^ 2 + Ol) * (-3 * Om / a ^ 4 + -2 * Ok / a ^ 3) = _
  have := (Real.sqrt_pos.2 hE).ne'
  field_simp

/-- The densities add up to one: matter and the other two terms over `E²`. -/
theorem matter_closure (Om Ok Ol a : ℝ) (hE : 0 < Om / a ^ 3 + Ok / a ^ 2 + Ol) :
    (matter Om Ok Ol).Om a + (Ok / a ^ 2 + Ol) / (matter Om Ok Ol).efunc a ^ 2 = 1 := by
  simp only [matter]
  rw [Real.sq_sqrt hE.le, ← add_div]
  have : Om / a ^ 3 + (Ok / a ^ 2 + Ol) = Om / a ^ 3 + Ok / a ^ 2 + Ol := by ring
  rw [this, div_self hE.ne']

/-- `gp` is the derivative of `Gp`, and `gf` the derivative of `Gf`, with respect to the scale factor, when the first and second orders are the
derivatives against `ln a`. -/
theorem factors_derivative (b : Bg) (y y' y'' : ℝ → ℝ) (hy : ∀ x, HasDerivAt y (y' x) x) (hy' : ∀ x, HasDerivAt y' (y'' x) x) (a : ℝ) (ha : 0 < a)
    (hb : HasDerivAt b.efunc (b.efuncPrime a) a) (D : ℝ → Nat → ℝ)
    (hD : ∀ t, D t 0 = y (Real.log t) ∧ D t 1 = y' (Real.log t) ∧ D t 2 = y'' (Real.log t)) :
    HasDerivAt (Gp D) (gp D a) a ∧ HasDerivAt (Gf b D) (gf b D a) a := by
  have hl := Real.hasDerivAt_log ha.ne'
  have e0 : Gp D = fun t => y (Real.log t) := funext fun t => (hD t).1
  have e1 : Gf b D = fun t => y' (Real.log t) * t ^ 2 * b.efunc t := by
    funext t; simp only [Gf, Bg.E, if_pos, (hD t).2.1]
  constructor
  · rw [e0]
    refine ((hy (Real.log a)).comp a hl).congr_deriv ?_
    rw [gp, (hD a).2.1, div_eq_mul_inv]
  · rw [e1]
    have h1 := (hy' (Real.log a)).comp a hl
    have h2 := (h1.fun_mul (hasDerivAt_pow 2 a)).fun_mul hb
    refine h2.congr_deriv ?_
    simp only [gf, Bg.E, (hD a).2.1, (hD a).2.2, Function.comp_apply]
    norm_num
    field_simp
    ring

/-- A vector solves the equation. -/
def Solves (b : Bg) (y : ℝ → State ℝ) : Prop := ∀ x,
  HasDerivAt (fun t => (y t).D1) (b.ode (y x) x).D1 x ∧ HasDerivAt (fun t => (y t).F1) (b.ode (y x) x).F1 x ∧
  HasDerivAt (fun t => (y t).D2) (b.ode (y x) x).D2 x ∧ HasDerivAt (fun t => (y t).F2) (b.ode (y x) x).F2 x

/-- In a universe with matter only the initial condition continues to a solution: linear growth is the scale factor, second order growth
`-3/7` of its square, so that the growth rates are one and two. -/
theorem matter_only_solution (Om : ℝ) (hOm : 0 < Om) : Solves (matter Om 0 0) matterInit := by
  intro x
  have hexp := Real.hasDerivAt_exp x
  have hp : (0 : ℝ) < Real.exp x := Real.exp_pos x
  have hE : 0 < Om / Real.exp x ^ 3 := by positivity
  have hs : Real.sqrt (Om / Real.exp x ^ 3) ^ 2 = Om / Real.exp x ^ 3 := Real.sq_sqrt hE.le
  have hsp := Real.sqrt_pos.2 hE
  have hom : (matter Om 0 0).Om (Real.exp x) = 1 := by
    simp only [matter, zero_div, add_zero, hs]
    exact div_self hE.ne'
  have hfac : (matter Om 0 0).Hfac (Real.exp x) = -1 / 2 := by
    simp only [Bg.Hfac, Bg.E, matter, zero_div, add_zero, mul_zero]
    norm_num
    have h3 : Real.sqrt (Om / Real.exp x ^ 3) * Real.sqrt (Om / Real.exp x ^ 3) = Om / Real.exp x ^ 3 := by rw [← sq, hs]
    have h4 : (Real.sqrt (Om / Real.exp x ^ 3))⁻¹ * (1 / 2) * (-(3 * Om) / Real.exp x ^ 4) * Real.exp x / Real.sqrt (Om / Real.exp x ^ 3) = -3 / 2 := by
      rw [div_eq_iff hsp.ne', mul_assoc, mul_assoc, inv_mul_eq_iff_eq_mul₀ hsp.ne']
      have : Real.sqrt (Om / Real.exp x ^ 3) * (-3 / 2 * Real.sqrt (Om / Real.exp x ^ 3)) = -3 / 2 * (Om / Real.exp x ^ 3) := by
        linear_combination (-3 / 2) * h3
      rw [this]
      field_simp
    first
      | linarith [h4]
      | (field_simp at h4 ⊢; linarith)
  have hsq := hexp.fun_pow 2
  refine ⟨hexp, ?_, ?_, ?_⟩
  · refine HasDerivAt.congr_deriv (f := Real.exp) hexp ?_
    simp only [Bg.ode, hom, hfac, matterInit]; ring
  · refine (hsq.const_mul (-3 / 7)).congr_deriv ?_
    simp only [Bg.ode, matterInit]; push_cast; ring
  · refine (hsq.const_mul (-6 / 7)).congr_deriv ?_
    simp only [Bg.ode, hom, hfac, matterInit]; push_cast; ring

/-- The growth functions of a universe with matter only, when the solver returns that solution: `a`, and `a²` after the normalization, at all
given scale factors; the growth rates are one and two. -/
theorem matter_only_growth (Om : ℝ) (hOm : 0 < Om) (start : ℝ) (hst : 0 < start) (a : List ℝ) (norm : ℝ) (ha : ∀ t ∈ norm :: a, 0 < t)
    (x : ℝ) (hx : x ∈ norm :: a) :
    let o := init Real.log matterInit (matter Om 0 0).ode start [] (some a) norm
    o.D1 Real.log x 0 = x / norm ∧ o.D2 Real.log x 0 = (x / norm) ^ 2 ∧ o.D1 Real.log x 2 = x / norm ∧ o.D2 Real.log x 2 = 4 * (x / norm) ^ 2 ∧
      o.D1 Real.log x 1 / o.D1 Real.log x 0 = 1 ∧ o.D2 Real.log x 1 / o.D2 Real.log x 0 = 2 := by
  intro o
  have hl : ∀ s t : ℝ, 0 < s → s ≤ t → Real.log s ≤ Real.log t := fun s t hs h => Real.log_le_log hs h
  have h0 := growth_exact_partial Real.log hl matterInit (matter Om 0 0).ode start hst [] a norm ha x hx 0
  have h1 := growth_exact_partial Real.log hl matterInit (matter Om 0 0).ode start hst [] a norm ha x hx 1
  have h2 := growth_exact_partial Real.log hl matterInit (matter Om 0 0).ode start hst [] a norm ha x hx 2
  have hxp := ha x hx
  have hS := matter_only_solution Om hOm (Real.log x)
  have e1 : ((matter Om 0 0).ode (matterInit (Real.log x)) (Real.log x)).F1 = x := by
    have := hS.2.1.unique (Real.hasDerivAt_exp (Real.log x))
    rw [this, Real.exp_log hxp]
  have e2 : ((matter Om 0 0).ode (matterInit (Real.log x)) (Real.log x)).F2 = -12 / 7 * x ^ 2 := by
    have := hS.2.2.2.unique (((Real.hasDerivAt_exp (Real.log x)).fun_pow 2).const_mul (-6 / 7))
    rw [this, Real.exp_log hxp]
    push_cast
    ring
  simp only [exact1, exact2, e1, e2] at h2
  have hnp := ha norm List.mem_cons_self
  simp only [exact1, exact2, matterInit, Real.exp_log hxp, Real.exp_log hnp] at h0 h1 h2
  simp only [o, h0.1, h0.2, h1.1, h1.2, h2.1, h2.2]
  refine ⟨trivial, ?_, trivial, ?_, ?_, ?_⟩ <;> field_simp <;> norm_num

/-- The equation is homogeneous: a solution scaled by `c` at first and `c²` at second order is a solution; the division by the two
values at the normalization is of this kind for the linear order. -/
theorem ode_scale (b : Bg) (y : State ℝ) (x c : ℝ) :
    b.ode ⟨c * y.D1, c * y.F1, c ^ 2 * y.D2, c ^ 2 * y.F2⟩ x =
      ⟨c * (b.ode y x).D1, c * (b.ode y x).F1, c ^ 2 * (b.ode y x).D2, c ^ 2 * (b.ode y x).F2⟩ := by
  simp only [Bg.ode, State.mk.injEq]
  refine ⟨trivial, ?_, trivial, ?_⟩ <;> ring

/-- The second order part is affine in itself: the difference of two solutions with the same linear part solves the linear equation. -/
theorem ode_affine (b : Bg) (y z : State ℝ) (x : ℝ) (h : y.D1 = z.D1) :
    (b.ode y x).F2 - (b.ode z x).F2 = (b.ode ⟨y.D2 - z.D2, y.F2 - z.F2, 0, 0⟩ x).F1 := by
  simp only [Bg.ode, h]; ring

/-- The initial condition of the radiation era is consistent: where the matter fraction is proportional to the scale factor, the second of each
pair is the derivative of the first against `ln a`. -/
theorem radiation_consistent (c aH : ℝ) (hH : 0 < aH) (x : ℝ) :
    HasDerivAt (fun t => (radiationInit (fun a => c * a) aH t).D1) (radiationInit (fun a => c * a) aH x).F1 x ∧
    HasDerivAt (fun t => (radiationInit (fun a => c * a) aH t).D2) (radiationInit (fun a => c * a) aH x).F2 x := by
  have hD : ∀ t, Real.log (Real.exp t / aH) = t - Real.log aH := fun t => by
    rw [Real.log_div (Real.exp_pos t).ne' hH.ne', Real.log_exp]
  have h1 : HasDerivAt (fun t : ℝ => t - Real.log aH) 1 x := (hasDerivAt_id x).sub_const _
  constructor
  · simp only [radiationInit, hD]
    exact h1
  · simp only [radiationInit, hD]
    have h2 := ((h1.fun_pow 2).fun_sub (h1.const_mul 4)).add_const 6
    have h3 := ((Real.hasDerivAt_exp x).const_mul c).const_mul (-3 / 2)
    have h4 := h3.fun_mul h2
    refine HasDerivAt.congr_deriv (f := fun t => -3 / 2 * (c * Real.exp t) * ((t - Real.log aH) ^ 2 - 4 * (t - Real.log aH) + 6)) h4 ?_
    push_cast
    ring

/-- Deep in the radiation era (expansion rate `c / a²`) with no matter density the linear part of the initial condition solves the equation. -/
theorem radiation_linear (b : Bg) (c aH : ℝ) (hc : c ≠ 0) (hE : ∀ a, b.efunc a = c / a ^ 2) (hE' : ∀ a, b.efuncPrime a = -2 * c / a ^ 3)
    (hOm : ∀ a, b.Om a = 0) (x : ℝ) :
    (b.ode (radiationInit b.Om aH x) x).D1 = 1 ∧ (b.ode (radiationInit b.Om aH x) x).F1 = 0 := by
  have hp := (Real.exp_pos x).ne'
  have hf : b.Hfac (Real.exp x) = 0 := by
    simp only [Bg.Hfac, Bg.E, hE, hE']
    norm_num
    field_simp
    ring
  refine ⟨rfl, ?_⟩
  simp only [Bg.ode, hOm, hf]
  ring

/-- The fluid model and the growth functions agree: for one displacement in all species and no pressure, `q` and `dq/dlna` satisfy the equation of
the linear growth with the total density, at every wavenumber. -/
theorem fluids_growth (f : Fluids) (E' : ℝ → ℝ) (hcb : f.cb = 0) (hcn : ∀ a, f.cncdm a = 0) (k : ℝ) (q p : ℝ → ℝ) (x : ℝ)
    (hE0 : f.efunc (Real.exp x) ≠ 0) (hE : HasDerivAt f.efunc (E' (Real.exp x)) (Real.exp x))
    (hq : ∀ t, HasDerivAt q (f.rhs k t (q t, q t, q t) (p t, p t, p t)).1.1 t)
    (hp : ∀ t, HasDerivAt p (f.rhs k t (q t, q t, q t) (p t, p t, p t)).2.1 t) (D2 F2 : ℝ) :
    let b : Bg := ⟨f.efunc, E', fun a => f.cdm a + f.b a + f.ncdm a⟩
    let F := fun t => (f.rhs k t (q t, q t, q t) (p t, p t, p t)).1.1
    HasDerivAt q (b.ode ⟨q x, F x, D2, F2⟩ x).D1 x ∧ HasDerivAt F (b.ode ⟨q x, F x, D2, F2⟩ x).F1 x ∧
      (f.rhs k x (q x, q x, q x) (p x, p x, p x)).2.2 = ((f.rhs k x (q x, q x, q x) (p x, p x, p x)).2.1, (f.rhs k x (q x, q x, q x) (p x, p x, p x)).2.1) := by
  intro b F
  refine ⟨hq x, ?_, ?_⟩
  · have he := Real.hasDerivAt_exp x
    have hne : Real.exp x ≠ 0 := (Real.exp_pos x).ne'
    have h1 := ((hp x).fun_mul ((he.fun_pow 2).fun_inv (pow_ne_zero 2 hne))).fun_mul ((hE.comp x he).fun_inv hE0)
    have hF : F = fun t => p t * (Real.exp t ^ 2)⁻¹ * ((f.efunc ∘ Real.exp) t)⁻¹ := by
      funext t
      simp only [F, Fluids.rhs, Function.comp_apply, one_div, div_eq_mul_inv, one_mul]
    have hFx : F x = p x * (Real.exp x ^ 2)⁻¹ * (f.efunc (Real.exp x))⁻¹ := by rw [hF]; rfl
    rw [hFx, hF]
    refine h1.congr_deriv ?_
    simp only [b, Bg.ode, Bg.Hfac, Bg.E, Fluids.rhs, Fluids.J, Function.comp_apply]
    norm_num
    field_simp
    ring
  · simp only [Fluids.rhs, Fluids.J, hcb, hcn]
    norm_num

/-- Pressure acts against the displacement: for a sound speed the baryon force is smaller than that on cold matter by `c² k² / H0²` times the displacement. -/
theorem fluids_pressure (f : Fluids) (k a : ℝ) (q : ℝ × ℝ × ℝ) :
    (f.J k a q).2.1 - (f.J k a q).1 = (f.cb * k / 100) ^ 2 * q.2.1 ∧ (f.J k a q).2.2 - (f.J k a q).1 = (f.cncdm a * k / 100) ^ 2 * q.2.2 := by
  simp only [Fluids.J]
  constructor <;> ring

/-- A case of the fluid model: matter only, the displacement grows like the scale factor. -/
example (k : ℝ) : let f : Fluids := ⟨(matter 1 0 0).efunc, fun _ => 1 / 2, fun _ => 1 / 4, fun _ => 1 / 4, 0, fun _ => 0⟩
    f.efunc 1 = 1 ∧ (f.rhs k 0 (1, 1, 1) (1, 1, 1)).1 = (1, 1, 1) ∧ (f.rhs k 0 (1, 1, 1) (1, 1, 1)).2 = (3 / 2, 3 / 2, 3 / 2) := by
  intro f
  have h : f.efunc 1 = 1 := by simp [f, matter]
  refine ⟨h, ?_, ?_⟩
  · simp [Fluids.rhs, h]
  · simp [Fluids.rhs, Fluids.J, h, f]
    norm_num [f, matter]

/-- A case of the background: curvature and a cosmological constant. -/
example : (matter (1 / 2) (1 / 4) (1 / 4)).efunc 1 = 1 ∧ (matter (1 / 2) (1 / 4) (1 / 4)).efuncPrime 1 = -1 ∧
    (matter (1 / 2) (1 / 4) (1 / 4)).Hfac 1 = -1 ∧ (0 : ℝ) < 1 / 2 / 1 ^ 3 + 1 / 4 / 1 ^ 2 + 1 / 4 := by
  have h : (1 : ℝ) / 2 / 1 ^ 3 + 1 / 4 / 1 ^ 2 + 1 / 4 = 1 := by norm_num
  refine ⟨?_, ?_, ?_, by norm_num⟩
  · simp only [matter, h, Real.sqrt_one]
  · simp only [matter, h, Real.sqrt_one]; norm_num
  · simp only [Bg.Hfac, Bg.E, matter, h, Real.sqrt_one]; norm_num

end NBK.Growth
