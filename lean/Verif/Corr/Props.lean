import Verif.Corr.Model
import Verif.Project.Props
import Mathlib.Tactic.FieldSimp
import Mathlib.Tactic.Ring

/-! # The correlation function is the mean product of the fields at a separation -/

set_option linter.unusedSimpArgs false

namespace NBK.Corr

open scoped ComplexConjugate

variable {G : Type} [AddCommGroup G] [Fintype G]

/-! ## In place products -/

open Classical in
theorem mul_fold {M : Type} (auto : Bool) (c2 : M → ℂ) (slabs : List (List M)) (st : M → ℂ) (hd : slabs.Pairwise List.Disjoint) (m : M) :
    slabs.foldl (mulSlab auto c2) st m = if ∃ s ∈ slabs, m ∈ s then st m * conj ((if auto then st else c2) m) else st m := by
  induction slabs generalizing st with
  | nil => simp
  | cons s l ih =>
    obtain ⟨h1, h2⟩ := List.pairwise_cons.mp hd
    rw [List.foldl_cons, ih _ h2]
    by_cases hm : m ∈ s
    · have hno : ¬ ∃ s ∈ l, m ∈ s := by
        rintro ⟨s', hs', hm'⟩
        exact h1 s' hs' hm hm'
      rw [if_neg hno, if_pos ⟨s, List.mem_cons_self .., hm⟩]
      simp only [mulSlab, if_pos hm]
    · have e : mulSlab auto c2 st s m = st m := by simp only [mulSlab, if_neg hm]
      have e2 : (if auto then mulSlab auto c2 st s else c2) m = (if auto then st else c2) m := by
        cases auto
        · rfl
        · simpa using e
      rw [e, e2]
      simp only [List.mem_cons, exists_eq_or_imp, hm, false_or]

open Classical in
theorem clear_fold {M : Type} (zero : M) (slabs : List (List M)) (st : M → ℂ) (m : M) :
    slabs.foldl (clearSlab zero) st m = if (∃ s ∈ slabs, m ∈ s) ∧ m = zero then 0 else st m := by
  induction slabs generalizing st with
  | nil => simp
  | cons s l ih =>
    rw [List.foldl_cons, ih]
    simp only [clearSlab, List.mem_cons, exists_eq_or_imp]
    by_cases h3 : m = zero
    · subst h3
      by_cases h1 : m ∈ s <;> by_cases h2 : ∃ s ∈ l, m ∈ s <;> simp [h1, h2]
    · simp [h3]

open Classical in
/-- **C89.** The power, computed slab by slab over the array of the first field (also when the second is the same array): `V c1 c2*` for each mode and 0 for the
zero mode, for any decomposition into slabs in which each mode is in one. -/
theorem power3d_eq {M : Type} (zero : M) (V : ℝ) (slabs : List (List M)) (hd : slabs.Pairwise List.Disjoint) (hall : ∀ m, ∃ s ∈ slabs, m ∈ s)
    (auto : Bool) (c1 c2 : M → ℂ) (hauto : auto = true → c2 = c1) (m : M) :
    power3d zero V slabs auto c1 c2 m = if m = zero then 0 else V * (c1 m * conj (c2 m)) := by
  unfold power3d
  simp only [clear_fold, mul_fold auto c2 slabs c1 hd, hall, true_and, if_true]
  have e : (if auto then c1 else c2) = c2 := by
    cases auto
    · rfl
    · simp [hauto rfl]
  rw [e]
  split
  · simp
  · ring

/-! ## Correlation -/

theorem r2c_zero (δ : G → ℂ) : r2c δ 0 = (1 / (Fintype.card G : ℂ)) * ∑ x, δ x := by
  simp [r2c]

theorem conj_r2c (δ : G → ℂ) (ψ : AddChar G ℂ) : conj (r2c δ ψ) = (1 / (Fintype.card G : ℂ)) * ∑ x, conj (δ x) * ψ x := by
  unfold r2c
  rw [map_mul, map_sum, map_div₀, map_one, Complex.conj_natCast]
  congr 1
  apply Finset.sum_congr rfl
  intro x _
  rw [map_mul, AddChar.map_neg_eq_conj, Complex.conj_conj]

/-- The sum over all modes of `c1 c2* ψ(r)` is the mean product at the separation `r`. -/
theorem sum_modes (δ1 δ2 : G → ℂ) (r : G) :
    ∑ ψ : AddChar G ℂ, r2c δ1 ψ * conj (r2c δ2 ψ) * ψ r = (1 / (Fintype.card G : ℂ)) * ∑ x, δ1 (x + r) * conj (δ2 x) := by
  classical
  have hN : (Fintype.card G : ℂ) ≠ 0 := by simp [Fintype.card_ne_zero]
  have e : ∀ ψ : AddChar G ℂ, r2c δ1 ψ * conj (r2c δ2 ψ) * ψ r =
      (1 / (Fintype.card G : ℂ)) ^ 2 * ∑ x, ∑ y, δ1 x * conj (δ2 y) * ψ (y + r - x) := by
    intro ψ
    rw [conj_r2c]
    unfold r2c
    rw [show ∀ a b c d : ℂ, a * b * (a * c) * d = a ^ 2 * (b * c * d) by intros; ring, Finset.sum_mul_sum, Finset.sum_mul]
    congr 1
    apply Finset.sum_congr rfl
    intro x _
    rw [Finset.sum_mul]
    apply Finset.sum_congr rfl
    intro y _
    rw [sub_eq_add_neg, AddChar.map_add_eq_mul, AddChar.map_add_eq_mul]
    ring
  simp only [e]
  rw [← Finset.mul_sum, Finset.sum_comm]
  have e2 : ∀ x : G, ∑ ψ : AddChar G ℂ, ∑ y, δ1 x * conj (δ2 y) * ψ (y + r - x) = (Fintype.card G : ℂ) * (δ1 x * conj (δ2 (x - r))) := by
    intro x
    rw [Finset.sum_comm]
    have e3 : ∀ y : G, ∑ ψ : AddChar G ℂ, δ1 x * conj (δ2 y) * ψ (y + r - x) =
        if y = x - r then δ1 x * conj (δ2 y) * (Fintype.card G : ℂ) else 0 := by
      intro y
      rw [← Finset.mul_sum, AddChar.sum_apply_eq_ite]
      have : y + r - x = 0 ↔ y = x - r := by
        constructor
        · intro h
          rw [eq_sub_iff_add_eq]
          exact sub_eq_zero.mp h
        · rintro rfl
          simp
      simp only [this]
      split <;> simp
    simp only [e3]
    rw [Finset.sum_ite_eq' Finset.univ (x - r)]
    simp
    ring
  simp only [e2]
  rw [← Finset.mul_sum, ← Equiv.sum_comp (Equiv.addRight r)]
  simp only [Equiv.coe_addRight, add_sub_cancel_right]
  field_simp

/-- **C89.** The 3D correlation is the mean over the mesh of the product of the fields at the separation `r`, less the product of the means. -/
theorem corr_eq (V : ℝ) (hV : V ≠ 0) (slabs : List (List (AddChar G ℂ))) (hd : slabs.Pairwise List.Disjoint) (hall : ∀ m, ∃ s ∈ slabs, m ∈ s)
    (auto : Bool) (δ1 δ2 : G → ℂ) (hauto : auto = true → δ2 = δ1) (r : G) :
    corr3d V slabs auto δ1 δ2 r = (1 / (Fintype.card G : ℂ)) * (∑ x, δ1 (x + r) * conj (δ2 x)) -
      ((1 / (Fintype.card G : ℂ)) * ∑ x, δ1 x) * conj ((1 / (Fintype.card G : ℂ)) * ∑ x, δ2 x) := by
  classical
  have hV' : (V : ℂ) ≠ 0 := by exact_mod_cast hV
  unfold corr3d c2r
  simp only [power3d_eq 0 V slabs hd hall auto (r2c δ1) (r2c δ2) (fun h => by rw [hauto h])]
  rw [← sum_modes, ← r2c_zero, ← r2c_zero]
  have e : ∀ ψ : AddChar G ℂ, (if ψ = 0 then 0 else (V : ℂ) * (r2c δ1 ψ * conj (r2c δ2 ψ))) * ψ r =
      V * (r2c δ1 ψ * conj (r2c δ2 ψ) * ψ r) - if ψ = 0 then V * (r2c δ1 0 * conj (r2c δ2 0)) else 0 := by
    intro ψ
    split
    · next h =>
      subst h
      simp
    · ring
  simp only [e, Finset.sum_sub_distrib, ← Finset.mul_sum]
  rw [Finset.sum_ite_eq' Finset.univ (0 : AddChar G ℂ)]
  simp only [Finset.mem_univ, if_true]
  field_simp

/-- **C89.** Auto correlations of real fields: symmetric in the separation, real, the variance at zero separation and nowhere larger than that. -/
theorem auto_corr (V : ℝ) (hV : 0 < V) (slabs : List (List (AddChar G ℂ))) (hd : slabs.Pairwise List.Disjoint) (hall : ∀ m, ∃ s ∈ slabs, m ∈ s)
    (δ : G → ℂ) (hδ : ∀ x, conj (δ x) = δ x) (r : G) :
    corr3d V slabs true δ δ (-r) = corr3d V slabs true δ δ r ∧ conj (corr3d V slabs true δ δ r) = corr3d V slabs true δ δ r ∧
    corr3d V slabs true δ δ 0 = (1 / (Fintype.card G : ℂ)) * (∑ x, δ x ^ 2) - ((1 / (Fintype.card G : ℂ)) * ∑ x, δ x) ^ 2 ∧
    ‖corr3d V slabs true δ δ r‖ ≤ ‖corr3d V slabs true δ δ 0‖ := by
  classical
  have hc := corr_eq V hV.ne' slabs hd hall true δ δ (fun _ => rfl)
  refine ⟨?_, ?_, ?_, ?_⟩
  · rw [hc, hc]
    congr 2
    rw [← Equiv.sum_comp (Equiv.addRight r)]
    simp only [Equiv.coe_addRight, add_neg_cancel_right, hδ]
    exact Finset.sum_congr rfl fun x _ => mul_comm _ _
  · rw [hc]
    simp only [map_sub, map_mul, map_sum, map_div₀, map_one, Complex.conj_natCast, hδ, Complex.conj_conj]
  · rw [hc]
    simp only [add_zero, hδ, map_mul, map_sum, map_div₀, map_one, Complex.conj_natCast]
    simp only [← pow_two]
  · have e : ∀ r, corr3d V slabs true δ δ r = ∑ ψ : AddChar G ℂ, (if ψ = 0 then 0 else ((‖r2c δ ψ‖ ^ 2 : ℝ) : ℂ)) * ψ r := by
      intro r
      have hV' : (V : ℂ) ≠ 0 := by exact_mod_cast hV.ne'
      unfold corr3d c2r
      rw [Finset.sum_mul]
      apply Finset.sum_congr rfl
      intro ψ _
      rw [power3d_eq 0 V slabs hd hall true (r2c δ) (r2c δ) (fun _ => rfl), Complex.mul_conj, Complex.normSq_eq_norm_sq]
      split
      · simp
      · field_simp
    rw [e r, e 0]
    have h0 : ∑ ψ : AddChar G ℂ, (if ψ = 0 then 0 else ((‖r2c δ ψ‖ ^ 2 : ℝ) : ℂ)) * ψ 0 =
        ((∑ ψ : AddChar G ℂ, if ψ = 0 then 0 else ‖r2c δ ψ‖ ^ 2 : ℝ) : ℂ) := by
      push_cast
      apply Finset.sum_congr rfl
      intro ψ _
      rw [AddChar.map_zero_eq_one, mul_one]
      split <;> simp
    rw [h0, Complex.norm_real, Real.norm_of_nonneg (Finset.sum_nonneg fun ψ _ => by split <;> positivity)]
    apply (norm_sum_le _ _).trans
    apply Finset.sum_le_sum
    intro ψ _
    rw [norm_mul, AddChar.norm_apply, mul_one]
    split
    · simp
    · rw [Complex.norm_real, Real.norm_of_nonneg (by positivity)]

/-- **C89.** A constant added to a field, and a common shift of both fields, change nothing. -/
theorem corr_invariant (V : ℝ) (hV : V ≠ 0) (slabs : List (List (AddChar G ℂ))) (hd : slabs.Pairwise List.Disjoint) (hall : ∀ m, ∃ s ∈ slabs, m ∈ s)
    (δ1 δ2 : G → ℂ) (a b : ℂ) (s r : G) :
    corr3d V slabs false (fun x => δ1 (x + s) + a) (fun x => δ2 (x + s) + b) r = corr3d V slabs false δ1 δ2 r := by
  have hN : (Fintype.card G : ℂ) ≠ 0 := by simp [Fintype.card_ne_zero]
  have sh : ∀ f : G → ℂ, ∑ x, f (x + s) = ∑ x, f x := fun f => Equiv.sum_comp (Equiv.addRight s) f
  have shr : ∀ f : G → ℂ, ∑ x, f (x + r) = ∑ x, f x := fun f => Equiv.sum_comp (Equiv.addRight r) f
  rw [corr_eq V hV slabs hd hall false _ _ (fun h => by simp at h), corr_eq V hV slabs hd hall false _ _ (fun h => by simp at h)]
  have e1 : ∑ x, (δ1 (x + r + s) + a) * conj (δ2 (x + s) + b) =
      ∑ x, δ1 (x + r) * conj (δ2 x) + (∑ x, δ1 x) * conj b + a * conj (∑ x, δ2 x) + Fintype.card G * (a * conj b) := by
    have : ∀ x, (δ1 (x + r + s) + a) * conj (δ2 (x + s) + b) =
        δ1 ((x + s) + r) * conj (δ2 (x + s)) + δ1 (x + s + r) * conj b + a * conj (δ2 (x + s)) + a * conj b := by
      intro x
      rw [map_add, add_right_comm x r s]
      ring
    simp only [this, Finset.sum_add_distrib]
    rw [sh (fun x => δ1 (x + r) * conj (δ2 x)), sh (fun x => δ1 (x + r) * conj b), shr (fun x => δ1 x * conj b), ← Finset.sum_mul, ← Finset.mul_sum,
      sh (fun x => conj (δ2 x)), map_sum]
    simp
  have e2 : ∀ (δ : G → ℂ) (a : ℂ), ∑ x, (δ (x + s) + a) = ∑ x, δ x + Fintype.card G * a := by
    intro δ a
    rw [Finset.sum_add_distrib, sh δ]
    simp
  rw [e1, e2, e2]
  simp only [map_mul, map_add, map_div₀, map_one, Complex.conj_natCast]
  field_simp
  ring

/-! ## Bins -/

theorem muEdges_one : muEdges 1 = [0, 1] := by decide +kernel

open Classical in
/-- **C89 (partial).** The one dimensional correlation in a bin of the separation is the mean over the separations in the bin with `0 ≤ mu` (and the number counts
only those), for every decomposition. Missing (false): the mean over all separations in the bin. -/
theorem run_partial (redges : List ℚ) (h0 : ∀ e ∈ redges, 0 ≤ e) (hr : redges.Pairwise (· < ·)) (Nmu : Nat) (seps : List (List (List Project.Mode)))
    (hx : ∀ m ∈ Project.modes seps, 0 ≤ m.x ∧ m.x2 = m.x ^ 2 ∧ m.w = 1 ∧ m.mu ≤ 1) (poles : List Nat) (i : Nat) (hi : i + 1 < redges.length) :
    let l := (Project.modes seps).filter fun m => decide (Project.InBin redges i m.x ∧ 0 ≤ m.mu)
    (run true Nmu redges seps poles i 0).2.2.2.2 = l.length ∧
    (l ≠ [] → (run true Nmu redges seps poles i 0).2.2.1 = some ((l.map fun m => m.y.re).sum / l.length)) := by
  have hsq : (redges.map (· ^ 2)).Pairwise (· < ·) := by
    rw [List.pairwise_map]
    refine hr.imp_of_mem fun {a b} ha hb hab => ?_
    have := h0 a ha
    nlinarith
  have h := Project.project_2d_partial false (redges.map (· ^ 2)) (muEdges 1) hsq (by rw [muEdges_one]; decide +kernel) seps (by
    intro m hm e he
    rw [muEdges_one] at he
    have : e = 1 := by simpa using he.symm
    rw [this]
    exact (hx m hm).2.2.2) poles i 0 (by simpa using hi) (by rw [muEdges_one]; simp)
  have hf : ((Project.modes seps).filter fun m => decide (Project.InBin (redges.map (· ^ 2)) i m.x2 ∧ Project.InMuBin (muEdges 1) 0 m.mu)) =
      (Project.modes seps).filter fun m => decide (Project.InBin redges i m.x ∧ 0 ≤ m.mu) := by
    apply List.filter_congr
    intro m hm
    obtain ⟨a, b, _, d⟩ := hx m hm
    rw [decide_eq_decide, b, Project.bin_squared redges h0 m.x a]
    apply and_congr_right
    intro _
    rw [muEdges_one]
    unfold Project.InMuBin Project.InBin
    simp only [List.length_cons, List.length_nil, List.getElem?_cons_zero, List.getElem?_cons_succ, Option.some.injEq]
    constructor
    · rintro (⟨lo, hi, rfl, rfl, h, _⟩ | ⟨_, h⟩)
      · exact h
      · rw [← h]
        norm_num
    · intro h
      rcases lt_or_eq_of_le d with h' | h'
      · exact .inl ⟨0, 1, rfl, rfl, h, h'⟩
      · exact .inr ⟨trivial, h'.symm⟩
  rw [hf] at h
  have hw : ∀ l : List Project.Mode, (∀ m ∈ l, m.w = 1) → (l.map fun m => (m.w : ℚ)).sum = l.length := by
    intro l hl
    induction l with
    | nil => simp
    | cons a l ih =>
      rw [List.map_cons, List.sum_cons, ih (fun m hm => hl m (List.mem_cons_of_mem _ hm)), hl a (List.mem_cons_self ..), List.length_cons]
      push_cast
      ring
  have hw' := hw ((Project.modes seps).filter fun m => decide (Project.InBin redges i m.x ∧ 0 ≤ m.mu))
    (fun m hm => (hx m (List.mem_filter.mp hm).1).2.2.1)
  unfold run
  simp only [if_true]
  rw [h]
  refine ⟨hw', fun hne => ?_⟩
  simp only [Project.mean, Project.ratio, hw', Bool.false_eq_true, false_and, if_false]
  rw [if_neg]
  simpa using hne

/-- Six separations of length 1, with the value `a` across and `b` along the third axis, and the line of sight along the third or the first axis. -/
def shell (alongThird : Bool) (a b : ℚ) : List (List (List Project.Mode)) :=
  let m (mu v : ℚ) : Project.Mode := ⟨1, 1, mu, true, 1, ⟨v, 0⟩⟩
  if alongThird then [[[m 0 a, m 0 a, m 0 a, m 0 a, m 1 b, m (-1) b]]] else [[[m 1 a, m (-1) a, m 0 a, m 0 a, m 0 b, m 0 b]]]

/-- **C89 does not hold.** The correlation in a bin is not the mean over its separations: with values 1 across and 4 along the third axis the mean over the six
separations of length 1 is 2; the result is 8/5 or 11/5, depending on the line of sight although no dependence on the direction is asked for, and five are
counted. -/
theorem half_counted :
    (run true 5 [1, 2] (shell true 1 4) [] 0 0).2.2.1 = some (8 / 5) ∧ (run true 5 [1, 2] (shell false 1 4) [] 0 0).2.2.1 = some (11 / 5) ∧
    (run true 5 [1, 2] (shell true 1 4) [] 0 0).2.2.2.2 = 5 := by
  decide +kernel

/-- **C89 does not hold.** For a cross correlation, where the values at `r` and `-r` differ, the separations against the line of sight are lost. -/
theorem cross_lost :
    (run true 5 [1, 2] [[[⟨1, 1, 1, true, 1, ⟨3, 0⟩⟩, ⟨1, 1, -1, true, 1, ⟨5, 0⟩⟩]]] [] 0 0).2.2.1 = some 3 ∧
    (run true 5 [1, 2] [[[⟨1, 1, -1, true, 1, ⟨3, 0⟩⟩, ⟨1, 1, 1, true, 1, ⟨5, 0⟩⟩]]] [] 0 0).2.2.1 = some 5 := by
  decide +kernel

/-- **C89.** The shot noise is that of the first field for an auto spectrum and 0 for a cross spectrum. -/
theorem attrs_spec (n1 n2 : Option ℕ) (shot : Option ℚ) :
    (powerAttrs false n1 n2 shot).2.2 = 0 ∧ (∀ s, shot = some s → (powerAttrs true n1 n2 shot).2.2 = s) ∧ (shot = none → (powerAttrs true n1 n2 shot).2.2 = 0) := by
  refine ⟨rfl, fun s h => by simp [powerAttrs, h], fun h => by simp [powerAttrs, h]⟩

/-- The hypotheses on the slabs are met: each mode a slab of its own. -/
example : ∃ slabs : List (List (AddChar (ZMod 2) ℂ)), slabs.Pairwise List.Disjoint ∧ ∀ m, ∃ s ∈ slabs, m ∈ s := by
  refine ⟨Finset.univ.toList.map fun m => [m], ?_, fun m => ⟨[m], by simp, by simp⟩⟩
  rw [List.pairwise_map]
  exact (Finset.nodup_toList _).imp fun h => by simpa using fun h' => h h'.symm

end NBK.Corr
