import Verif.Zhist.Scott
import Mathlib.Analysis.Real.Pi.Irrational
import Mathlib.Tactic.LinearCombination
import Mathlib.Tactic.FieldSimp

set_option linter.unusedSimpArgs false

/-!
# Scott's bins: any layout, shifts and units of redshift, the number of bins, and no redshift on the last edge
-/
namespace NBK.Zhist.Scott

/-! ## Sums over the ranks -/

theorem csum_flatten (D : List (List ℝ)) : csum D = D.flatten.sum := by
  rw [csum, List.sum_flatten]

theorem csize_flatten (D : List (List ℝ)) : csize D = D.flatten.length := by
  rw [csize, List.length_flatten]

theorem rsum_flatten (D : List (List ℝ)) : rsum D = (D.flatten.map fun x => (x - cmean D) ^ 2).sum := by
  rw [rsum, List.map_flatten, List.sum_flatten, List.map_map]
  congr 2
  funext d
  simp only [Function.comp_apply, sq_abs]

theorem width_nonneg (D : List (List ℝ)) : 0 ≤ width D :=
  mul_nonneg (Real.sqrt_nonneg _) (Real.rpow_nonneg (div_nonneg (by positivity) (Nat.cast_nonneg _)) _)

/-! ## Least and greatest redshift -/

theorem foldl_min_spec (l : List ℝ) (x : ℝ) : IsLeast {y | y ∈ x :: l} (l.foldl min x) := by
  induction l generalizing x with
  | nil => exact ⟨by simp, fun y hy => by simp at hy; exact hy.ge⟩
  | cons a l ih =>
    have h := ih (min x a)
    refine ⟨?_, ?_⟩
    · have := h.1
      simp only [Set.mem_setOf_eq, List.mem_cons] at this ⊢
      simp only [List.foldl_cons]
      rcases this with h1 | h1
      · rw [h1]
        rcases min_choice x a with h2 | h2
        · exact Or.inl h2
        · exact Or.inr (Or.inl h2)
      · exact Or.inr (Or.inr h1)
    · intro y hy
      simp only [Set.mem_setOf_eq, List.mem_cons] at hy
      have h0 : (a :: l).foldl min x ≤ min x a := h.2 (by simp)
      rcases hy with rfl | rfl | hy
      · exact h0.trans (min_le_left _ _)
      · exact h0.trans (min_le_right _ _)
      · exact h.2 (by simp [hy])

theorem foldl_max_spec (l : List ℝ) (x : ℝ) : IsGreatest {y | y ∈ x :: l} (l.foldl max x) := by
  induction l generalizing x with
  | nil => exact ⟨by simp, fun y hy => by simp at hy; exact hy.le⟩
  | cons a l ih =>
    have h := ih (max x a)
    refine ⟨?_, ?_⟩
    · have := h.1
      simp only [Set.mem_setOf_eq, List.mem_cons] at this ⊢
      simp only [List.foldl_cons]
      rcases this with h1 | h1
      · rw [h1]
        rcases max_choice x a with h2 | h2
        · exact Or.inl h2
        · exact Or.inr (Or.inl h2)
      · exact Or.inr (Or.inr h1)
    · intro y hy
      simp only [Set.mem_setOf_eq, List.mem_cons] at hy
      have h0 : max x a ≤ (a :: l).foldl max x := h.2 (by simp)
      rcases hy with rfl | rfl | hy
      · exact (le_max_left _ _).trans h0
      · exact (le_max_right _ _).trans h0
      · exact h.2 (by simp [hy])

theorem extreme_none (f : ℝ → ℝ → ℝ) (d : List ℝ) : extreme f d = none ↔ d = [] := by
  cases d <;> simp [extreme]

/-- The reduction fails exactly if some rank has nothing, or there are no ranks. -/
theorem reduce_none (f : ℝ → ℝ → ℝ) (D : List (List ℝ)) : reduce f D = none ↔ D = [] ∨ [] ∈ D := by
  induction D with
  | nil => simp [reduce]
  | cons d D ih =>
    cases D with
    | nil => rw [reduce, extreme_none]; simp [eq_comm]
    | cons e D =>
      cases hd : extreme f d with
      | none =>
        have h0 := (extreme_none f d).1 hd
        simp only [reduce, hd, true_iff]
        right; rw [h0]; exact List.mem_cons_self
      | some a =>
        have hne : ([] : List ℝ) ≠ d := by rintro rfl; simp [extreme] at hd
        cases hr : reduce f (e :: D) with
        | none =>
          rw [hr] at ih
          simp only [reduce, hd, hr, true_iff]
          rcases ih.1 rfl with h | h
          · cases h
          · exact Or.inr (List.mem_cons_of_mem _ h)
        | some b =>
          rw [hr] at ih
          simp only [reduce, hd, hr]
          simp only [reduceCtorEq, false_iff, not_or] at ih ⊢
          exact ⟨by simp, by rw [List.mem_cons, not_or]; exact ⟨hne, ih.2⟩⟩

theorem reduce_min_spec (D : List (List ℝ)) (m : ℝ) (h : reduce min D = some m) : IsLeast {y | y ∈ D.flatten} m := by
  induction D generalizing m with
  | nil => simp [reduce] at h
  | cons d D ih =>
    cases D with
    | nil =>
      cases d with
      | nil => simp [reduce, extreme] at h
      | cons x l => simp only [reduce, extreme, Option.some.injEq] at h; rw [← h]; simpa using foldl_min_spec l x
    | cons e D =>
      cases d with
      | nil => simp [reduce, extreme] at h
      | cons x l =>
        cases hr : reduce min (e :: D) with
        | none => simp [reduce, hr] at h
        | some b =>
          simp only [reduce, extreme, hr, Option.some.injEq] at h
          have h1 := foldl_min_spec l x
          have h2 := ih b hr
          have h3 := h1.union h2
          rw [h] at h3
          have hset : {y | y ∈ ((x :: l) :: e :: D).flatten} = {y | y ∈ x :: l} ∪ {y | y ∈ (e :: D).flatten} := by
            ext y
            rw [Set.mem_union]
            simp only [Set.mem_setOf_eq, List.flatten_cons, List.mem_append]
          rw [hset]
          exact h3

theorem reduce_max_spec (D : List (List ℝ)) (m : ℝ) (h : reduce max D = some m) : IsGreatest {y | y ∈ D.flatten} m := by
  induction D generalizing m with
  | nil => simp [reduce] at h
  | cons d D ih =>
    cases D with
    | nil =>
      cases d with
      | nil => simp [reduce, extreme] at h
      | cons x l => simp only [reduce, extreme, Option.some.injEq] at h; rw [← h]; simpa using foldl_max_spec l x
    | cons e D =>
      cases d with
      | nil => simp [reduce, extreme] at h
      | cons x l =>
        cases hr : reduce max (e :: D) with
        | none => simp [reduce, hr] at h
        | some b =>
          simp only [reduce, extreme, hr, Option.some.injEq] at h
          have h1 := foldl_max_spec l x
          have h2 := ih b hr
          have h3 := h1.union h2
          rw [h] at h3
          have hset : {y | y ∈ ((x :: l) :: e :: D).flatten} = {y | y ∈ x :: l} ∪ {y | y ∈ (e :: D).flatten} := by
            ext y
            rw [Set.mem_union]
            simp only [Set.mem_setOf_eq, List.flatten_cons, List.mem_append]
          rw [hset]
          exact h3

/-! ## What the call gives -/

/-- What is known of a call that succeeds: the least and greatest redshift of all ranks. -/
theorem scott_some (D : List (List ℝ)) (dx : ℝ) (E : List ℝ) (h : scott D = some (dx, E)) : ∃ lo hi, IsLeast {y | y ∈ D.flatten} lo ∧ IsGreatest {y | y ∈ D.flatten} hi ∧ dx = width D ∧
    E = (List.range (nbins lo hi (width D) + 1)).map fun k : ℕ => lo + width D * k := by
  unfold scott at h
  cases h1 : reduce min D with
  | none => simp [h1] at h
  | some lo =>
    cases h2 : reduce max D with
    | none => simp [h1, h2] at h
    | some hi =>
      simp only [h1, h2, Option.some.injEq, Prod.mk.injEq] at h
      exact ⟨lo, hi, reduce_min_spec D lo h1, reduce_max_spec D hi h2, h.1.symm, h.2.symm⟩

theorem scott_eq (D : List (List ℝ)) (hD : D ≠ []) (hne : [] ∉ D) : ∃ lo hi, IsLeast {y | y ∈ D.flatten} lo ∧ IsGreatest {y | y ∈ D.flatten} hi ∧
    scott D = some (width D, (List.range (nbins lo hi (width D) + 1)).map fun k : ℕ => lo + width D * k) := by
  cases h1 : reduce min D with
  | none => exact absurd ((reduce_none min D).1 h1) (by simp [hD, hne])
  | some lo =>
    cases h2 : reduce max D with
    | none => exact absurd ((reduce_none max D).1 h2) (by simp [hD, hne])
    | some hi => exact ⟨lo, hi, reduce_min_spec D lo h1, reduce_max_spec D hi h2, by simp only [scott, h1, h2]⟩

/-- The call succeeds exactly if every rank has a redshift. -/
theorem scott_none (D : List (List ℝ)) : scott D = none ↔ D = [] ∨ [] ∈ D := by
  constructor
  · intro h
    by_contra hc
    rw [not_or] at hc
    obtain ⟨lo, hi, -, -, h2⟩ := scott_eq D hc.1 hc.2
    rw [h2] at h; cases h
  · intro h
    simp [scott, (reduce_none min D).2 h]

/-! ## Layouts, shifts and units -/

/-- The width depends on the redshifts only, not on their ranks or order. -/
theorem width_layout (D D' : List (List ℝ)) (h : D.flatten.Perm D'.flatten) : width D = width D' := by
  have h1 : csize D = csize D' := by rw [csize_flatten, csize_flatten, h.length_eq]
  have h2 : cmean D = cmean D' := by rw [cmean, cmean, h1, csum_flatten, csum_flatten, h.sum_eq]
  rw [width, width, sigma, sigma, h1, rsum_flatten, rsum_flatten, h2, (h.map _).sum_eq]

/-- **Any layout**: with redshifts on every rank, the bins are the same for any ranks and order. -/
theorem scott_layout (D D' : List (List ℝ)) (h : D.flatten.Perm D'.flatten) (hD : D ≠ []) (hne : [] ∉ D) (hD' : D' ≠ []) (hne' : [] ∉ D') : scott D = scott D' := by
  obtain ⟨lo, hi, h1, h2, h3⟩ := scott_eq D hD hne
  obtain ⟨lo', hi', h1', h2', h3'⟩ := scott_eq D' hD' hne'
  have hs : {y | y ∈ D.flatten} = {y | y ∈ D'.flatten} := by ext y; exact h.mem_iff
  rw [hs] at h1 h2
  rw [h3, h3', h1.unique h1', h2.unique h2', width_layout D D' h]

/-- All redshifts `x` become `s x + t`. -/
def moved (s t : ℝ) (D : List (List ℝ)) : List (List ℝ) := D.map fun d => d.map fun x => s * x + t

theorem moved_flatten (s t : ℝ) (D : List (List ℝ)) : (moved s t D).flatten = D.flatten.map fun x => s * x + t := by
  rw [moved, List.map_flatten]

theorem sum_affine (s t : ℝ) (l : List ℝ) : (l.map fun x => s * x + t).sum = s * l.sum + t * l.length := by
  induction l with
  | nil => simp
  | cons a l ih => simp only [List.map_cons, List.sum_cons, ih, List.length_cons, Nat.cast_add, Nat.cast_one]; ring

theorem width_moved (s t : ℝ) (hs : 0 ≤ s) (D : List (List ℝ)) : width (moved s t D) = s * width D := by
  have h1 : csize (moved s t D) = csize D := by rw [csize_flatten, csize_flatten, moved_flatten, List.length_map]
  by_cases hn : csize D = 0
  · have hl : D.flatten = [] := by rw [csize_flatten] at hn; exact List.length_eq_zero_iff.1 hn
    have hl' : (moved s t D).flatten = [] := by rw [moved_flatten, hl]; rfl
    have a : width D = 0 := by simp [width, sigma, rsum_flatten, hl]
    have b : width (moved s t D) = 0 := by simp [width, sigma, rsum_flatten, hl']
    rw [a, b, mul_zero]
  · have hn' : (csize D : ℝ) ≠ 0 := Nat.cast_ne_zero.2 hn
    have h2 : cmean (moved s t D) = s * cmean D + t := by
      rw [cmean, cmean, h1, csum_flatten, csum_flatten, moved_flatten, sum_affine, ← csize_flatten]
      field_simp
    have h3 : rsum (moved s t D) = s ^ 2 * rsum D := by
      rw [rsum_flatten, rsum_flatten, moved_flatten, List.map_map, h2]
      rw [← List.sum_map_mul_left]
      congr 1
      apply List.map_congr_left
      intro x _
      simp only [Function.comp_apply]
      ring
    rw [width, width, sigma, sigma, h1, h3, mul_div_assoc, Real.sqrt_mul (sq_nonneg s), Real.sqrt_sq hs, mul_assoc]

theorem nbins_moved (s t lo hi dx : ℝ) (hs : 0 < s) : nbins (s * lo + t) (s * hi + t) (s * dx) = nbins lo hi dx := by
  unfold nbins
  by_cases hd : dx = 0
  · rw [if_pos hd, if_pos (by rw [hd, mul_zero])]
  · rw [if_neg hd, if_neg (mul_ne_zero hs.ne' hd)]
    have : (s * hi + t - (s * lo + t)) / (s * dx) = (hi - lo) / dx := by
      have := hs.ne'
      field_simp
      ring
    rw [this]

/-- **Shifts and units**: the bins of redshifts `s x + t`, for `s > 0`, have `s` times the width, and every edge moves likewise. -/
theorem scott_moved (s t : ℝ) (hs : 0 < s) (D : List (List ℝ)) : scott (moved s t D) = (scott D).map fun r => (s * r.1, r.2.map fun x => s * x + t) := by
  by_cases hD : D = [] ∨ [] ∈ D
  · have h' : moved s t D = [] ∨ [] ∈ moved s t D := by
      rcases hD with rfl | h
      · exact Or.inl rfl
      · exact Or.inr (List.mem_map.2 ⟨[], h, rfl⟩)
    rw [(scott_none _).2 h', (scott_none _).2 hD]; rfl
  · rw [not_or] at hD
    obtain ⟨lo, hi, h1, h2, h3⟩ := scott_eq D hD.1 hD.2
    have hD' : moved s t D ≠ [] := by simpa [moved] using hD.1
    have hne' : [] ∉ moved s t D := by
      intro h
      obtain ⟨d, hd, he⟩ := List.mem_map.1 h
      rw [List.map_eq_nil_iff] at he
      exact hD.2 (he ▸ hd)
    obtain ⟨lo', hi', h1', h2', h3'⟩ := scott_eq (moved s t D) hD' hne'
    have hm : Monotone fun x : ℝ => s * x + t := fun x y h => by
      have := mul_le_mul_of_nonneg_left h hs.le
      show s * x + t ≤ s * y + t
      linarith
    have hset : {y | y ∈ (moved s t D).flatten} = (fun x => s * x + t) '' {y | y ∈ D.flatten} := by
      ext y; rw [moved_flatten]; simp only [Set.mem_setOf_eq, List.mem_map, Set.mem_image]
    have e1 : lo' = s * lo + t := (hset ▸ h1').unique (hm.map_isLeast h1)
    have e2 : hi' = s * hi + t := (hset ▸ h2').unique (hm.map_isGreatest h2)
    rw [h3, h3', width_moved s t hs.le, e1, e2, nbins_moved s t lo hi _ hs]
    simp only [Option.map_some, Option.some.injEq, Prod.mk.injEq, true_and, List.map_map]
    apply List.map_congr_left
    intro k _
    simp only [Function.comp_apply]
    ring

/-! ## The number of bins -/

theorem csize_pos (D : List (List ℝ)) (x : ℝ) (h : x ∈ D.flatten) : (0 : ℝ) < csize D := by
  rw [csize_flatten]
  exact_mod_cast List.length_pos_of_mem h

theorem sum_dev (l : List ℝ) (m c : ℝ) (hm : l.sum = m * l.length) : (l.map fun x => (x - c) ^ 2).sum = (l.map fun x => (x - m) ^ 2).sum + l.length * (m - c) ^ 2 := by
  have key : ∀ l : List ℝ, (l.map fun x => (x - c) ^ 2).sum = (l.map fun x => (x - m) ^ 2).sum + 2 * (m - c) * (l.sum - m * l.length) + l.length * (m - c) ^ 2 := by
    intro l
    induction l with
    | nil => simp
    | cons a l ih => simp only [List.map_cons, List.sum_cons, ih, List.length_cons, Nat.cast_add, Nat.cast_one]; ring
  rw [key l, hm]; ring

theorem sum_le_card (l : List ℝ) (f : ℝ → ℝ) (c : ℝ) (h : ∀ x ∈ l, f x ≤ c) : (l.map f).sum ≤ l.length * c := by
  induction l with
  | nil => simp
  | cons a l ih =>
    have h1 := h a (by simp)
    have h2 := ih fun x hx => h x (by simp [hx])
    simp only [List.map_cons, List.sum_cons, List.length_cons, Nat.cast_add, Nat.cast_one]
    linarith

theorem rsum_upper (D : List (List ℝ)) (lo hi : ℝ) (h1 : IsLeast {y | y ∈ D.flatten} lo) (h2 : IsGreatest {y | y ∈ D.flatten} hi) : rsum D ≤ csize D * ((hi - lo) / 2) ^ 2 := by
  have hn := csize_pos D lo h1.1
  have hm : D.flatten.sum = cmean D * D.flatten.length := by
    rw [cmean, csum_flatten, ← csize_flatten, div_mul_cancel₀ _ hn.ne']
  have h3 := sum_dev D.flatten (cmean D) ((lo + hi) / 2) hm
  have h4 : (D.flatten.map fun x => (x - (lo + hi) / 2) ^ 2).sum ≤ D.flatten.length * ((hi - lo) / 2) ^ 2 := by
    apply sum_le_card
    intro x hx
    have a := h1.2 hx
    have b := h2.2 hx
    nlinarith
  have h5 : 0 ≤ (D.flatten.length : ℝ) * (cmean D - (lo + hi) / 2) ^ 2 := by positivity
  rw [rsum_flatten, csize_flatten]
  linarith

theorem two_le_sum (l : List ℝ) (f : ℝ → ℝ) (hf : ∀ x, 0 ≤ f x) (a b : ℝ) (ha : a ∈ l) (hb : b ∈ l) (hab : a ≠ b) : f a + f b ≤ (l.map f).sum := by
  induction l with
  | nil => cases ha
  | cons c l ih =>
    have hs : ∀ x ∈ l, f x ≤ (l.map f).sum := fun x hx => List.single_le_sum (by simpa using fun y _ => hf y) _ (List.mem_map_of_mem hx)
    simp only [List.map_cons, List.sum_cons]
    rcases List.mem_cons.1 ha with rfl | ha'
    · rcases List.mem_cons.1 hb with rfl | hb'
      · exact absurd rfl hab
      · have := hs b hb'; linarith
    · rcases List.mem_cons.1 hb with rfl | hb'
      · have := hs a ha'; linarith
      · have := ih ha' hb'
        have := hf c
        linarith

theorem rsum_lower (D : List (List ℝ)) (lo hi : ℝ) (h1 : lo ∈ D.flatten) (h2 : hi ∈ D.flatten) : (hi - lo) ^ 2 / 2 ≤ rsum D := by
  by_cases he : lo = hi
  · rw [he, rsum_flatten]
    have : 0 ≤ (D.flatten.map fun x => (x - cmean D) ^ 2).sum := List.sum_nonneg (by simp only [List.mem_map]; rintro _ ⟨x, _, rfl⟩; positivity)
    simpa using this
  · have := two_le_sum D.flatten (fun x => (x - cmean D) ^ 2) (fun x => by positivity) lo hi h1 h2 he
    rw [rsum_flatten]
    nlinarith [sq_nonneg (lo + hi - 2 * cmean D)]

/-- The factor of Scott's rule, without the redshifts. -/
noncomputable def factor (n : ℕ) : ℝ := (24 * Real.sqrt Real.pi / n) ^ ((1 : ℝ) / 3)

theorem factor_pos (n : ℕ) (hn : 0 < n) : 0 < factor n := by
  have : 0 < Real.sqrt Real.pi := Real.sqrt_pos.2 Real.pi_pos
  have : (0 : ℝ) < n := Nat.cast_pos.2 hn
  exact Real.rpow_pos_of_pos (by positivity) _

/-- The width is at most the range times half the factor, and at least the range times the factor over `sqrt(2 n)`. -/
theorem width_bounds (D : List (List ℝ)) (lo hi : ℝ) (h1 : IsLeast {y | y ∈ D.flatten} lo) (h2 : IsGreatest {y | y ∈ D.flatten} hi) :
    width D ≤ (hi - lo) / 2 * factor (csize D) ∧ (hi - lo) / Real.sqrt (2 * csize D) * factor (csize D) ≤ width D := by
  have hn := csize_pos D lo h1.1
  have hR : 0 ≤ hi - lo := sub_nonneg.2 (h1.2 h2.1)
  have hF := (factor_pos (csize D) (Nat.cast_pos.1 hn)).le
  have hw : width D = sigma D * factor (csize D) := rfl
  rw [hw]
  constructor
  · apply mul_le_mul_of_nonneg_right _ hF
    rw [sigma]
    apply Real.sqrt_le_iff.2
    refine ⟨by linarith, ?_⟩
    rw [div_le_iff₀ hn]
    have := rsum_upper D lo hi h1 h2
    linarith
  · apply mul_le_mul_of_nonneg_right _ hF
    rw [sigma]
    apply Real.le_sqrt_of_sq_le
    rw [div_pow, Real.sq_sqrt (by positivity), div_le_div_iff₀ (by positivity) hn]
    have := rsum_lower D lo hi h1.1 h2.1
    nlinarith

theorem width_zero_iff (D : List (List ℝ)) (lo hi : ℝ) (h1 : IsLeast {y | y ∈ D.flatten} lo) (h2 : IsGreatest {y | y ∈ D.flatten} hi) : width D = 0 ↔ lo = hi := by
  have hn := csize_pos D lo h1.1
  have hF := factor_pos (csize D) (Nat.cast_pos.1 hn)
  have hR : 0 ≤ hi - lo := sub_nonneg.2 (h1.2 h2.1)
  obtain ⟨a, b⟩ := width_bounds D lo hi h1 h2
  constructor
  · intro h
    rw [h] at b
    by_contra hc
    have : 0 < hi - lo := lt_of_le_of_ne hR (fun h => hc (by linarith))
    have : 0 < (hi - lo) / Real.sqrt (2 * csize D) * factor (csize D) := by
      have : 0 < Real.sqrt (2 * csize D) := Real.sqrt_pos.2 (by positivity)
      positivity
    linarith
  · intro h
    rw [h, sub_self, zero_div, zero_mul] at a
    exact le_antisymm a (width_nonneg D)

/-- **The number of bins** of `n` redshifts that are not all equal: at least `2/f` and below `sqrt(2 n)/f + 1`, where `f = (24 sqrt(pi)/n)^(1/3)`, however the redshifts are spread. -/
theorem scott_nbins (D : List (List ℝ)) (dx : ℝ) (E : List ℝ) (h : scott D = some (dx, E)) (x y : ℝ) (hx : x ∈ D.flatten) (hy : y ∈ D.flatten) (hxy : x ≠ y) :
    2 / (24 * Real.sqrt Real.pi / D.flatten.length) ^ ((1 : ℝ) / 3) ≤ (E.length : ℝ) - 1 ∧
    (E.length : ℝ) - 1 < Real.sqrt (2 * D.flatten.length) / (24 * Real.sqrt Real.pi / D.flatten.length) ^ ((1 : ℝ) / 3) + 1 := by
  obtain ⟨lo, hi, h1, h2, rfl, rfl⟩ := scott_some D dx E h
  rw [← csize_flatten]
  show 2 / factor (csize D) ≤ _ ∧ _ < _ / factor (csize D) + 1
  have hn := csize_pos D lo h1.1
  have hF := factor_pos (csize D) (Nat.cast_pos.1 hn)
  have hlh : lo < hi := by
    refine lt_of_le_of_ne (h1.2 h2.1) fun he => hxy ?_
    have a1 := h1.2 hx; have a2 := h2.2 hx; have a3 := h1.2 hy; have a4 := h2.2 hy
    linarith
  have hw : 0 < width D := lt_of_le_of_ne (width_nonneg D) fun he => hlh.ne ((width_zero_iff D lo hi h1 h2).1 he.symm)
  obtain ⟨a, b⟩ := width_bounds D lo hi h1 h2
  have hR : 0 < hi - lo := sub_pos.2 hlh
  have hq : 0 < (hi - lo) / width D := div_pos hR hw
  have hc : 1 ≤ ⌈(hi - lo) / width D⌉ := Int.one_le_ceil_iff.2 hq
  have hnb : ((nbins lo hi (width D) : ℕ) : ℝ) = (⌈(hi - lo) / width D⌉ : ℝ) := by
    rw [nbins, if_neg hw.ne', max_eq_right hc]
    have : ((⌈(hi - lo) / width D⌉.toNat : ℤ) : ℝ) = (⌈(hi - lo) / width D⌉ : ℝ) := by rw [Int.toNat_of_nonneg (by omega)]
    exact_mod_cast this
  rw [List.length_map, List.length_range, Nat.cast_add, Nat.cast_one, add_sub_cancel_right, hnb]
  have hS : 0 < Real.sqrt (2 * csize D) := Real.sqrt_pos.2 (by positivity)
  constructor
  · refine le_trans ?_ (Int.le_ceil _)
    rw [div_le_div_iff₀ hF hw]
    linarith
  · refine lt_of_lt_of_le (Int.ceil_lt_add_one _) ?_
    have : (hi - lo) / width D ≤ Real.sqrt (2 * csize D) / factor (csize D) := by
      rw [div_le_div_iff₀ hw hF]
      rw [div_mul_eq_mul_div, div_le_iff₀ hS] at b
      linarith
    linarith

/-! ## No redshift on the last edge -/

theorem width_pow (D : List (List ℝ)) (hn : 0 < csize D) : width D ^ 6 = (rsum D / csize D) ^ 3 * (576 / (csize D : ℝ) ^ 2) * Real.pi := by
  have hn' : (0 : ℝ) < csize D := Nat.cast_pos.2 hn
  have hr : 0 ≤ rsum D := by
    rw [rsum_flatten]
    exact List.sum_nonneg (by simp only [List.mem_map]; rintro _ ⟨x, _, rfl⟩; positivity)
  have h1 : sigma D ^ 6 = (rsum D / csize D) ^ 3 := by
    rw [sigma, show (6 : ℕ) = 2 * 3 from rfl, pow_mul, Real.sq_sqrt (div_nonneg hr hn'.le)]
  have hp : 0 ≤ 24 * Real.sqrt Real.pi / (csize D : ℝ) := by positivity
  have h2 : ((24 * Real.sqrt Real.pi / (csize D : ℝ)) ^ ((1 : ℝ) / 3)) ^ 6 = 576 / (csize D : ℝ) ^ 2 * Real.pi := by
    rw [← Real.rpow_natCast, ← Real.rpow_mul hp]
    norm_num
    rw [div_pow, mul_pow, Real.sq_sqrt Real.pi_pos.le]
    ring
  rw [width, mul_pow, h1, h2]
  ring

/-- Redshifts that are rational, as all floating-point numbers are. -/
def ofRat (D : List (List ℚ)) : List (List ℝ) := D.map fun d => d.map fun x : ℚ => (x : ℝ)

theorem ofRat_flatten (D : List (List ℚ)) : (ofRat D).flatten = D.flatten.map fun x : ℚ => (x : ℝ) := by
  rw [ofRat, List.map_flatten]

theorem sum_cast (l : List ℚ) : (l.map fun x : ℚ => (x : ℝ)).sum = ((l.sum : ℚ) : ℝ) := by
  induction l with
  | nil => simp
  | cons a l ih => simp only [List.map_cons, List.sum_cons, ih, Rat.cast_add]

theorem rsum_rat (D : List (List ℚ)) : ∃ q : ℚ, rsum (ofRat D) = q := by
  have hm : ∃ m : ℚ, cmean (ofRat D) = m := ⟨D.flatten.sum / D.flatten.length, by
    rw [cmean, csum_flatten, csize_flatten, ofRat_flatten, sum_cast, List.length_map]; push_cast; rfl⟩
  obtain ⟨m, hm⟩ := hm
  refine ⟨(D.flatten.map fun x => (x - m) ^ 2).sum, ?_⟩
  rw [rsum_flatten, hm, ofRat_flatten, ← sum_cast, List.map_map, List.map_map]
  congr 1
  apply List.map_congr_left
  intro x _
  simp

/-- The range of rational redshifts is no whole number of widths: the sixth power of the width is a rational times pi. -/
theorem range_not_multiple (D : List (List ℚ)) (x y : ℚ) (hx : x ∈ D.flatten) (hxy : x ≠ y) (k : ℕ) : (x : ℝ) - y ≠ width (ofRat D) * k := by
  intro h
  have hn : 0 < csize (ofRat D) := by
    rw [csize_flatten, ofRat_flatten, List.length_map]; exact List.length_pos_of_mem hx
  obtain ⟨q, hq⟩ := rsum_rat D
  have h6 : ((x : ℝ) - y) ^ 6 = ((q / csize (ofRat D)) ^ 3 * (576 / (csize (ofRat D) : ℚ) ^ 2) * k ^ 6 : ℚ) * Real.pi := by
    rw [h, mul_pow, width_pow _ hn, hq]; push_cast; ring
  set c : ℚ := (q / csize (ofRat D)) ^ 3 * (576 / (csize (ofRat D) : ℚ) ^ 2) * k ^ 6 with hc
  have hne : ((x : ℝ) - y) ^ 6 ≠ 0 := pow_ne_zero _ (sub_ne_zero.2 (by exact_mod_cast hxy))
  have hc0 : c ≠ 0 := by
    intro h0
    rw [h0, Rat.cast_zero, zero_mul] at h6
    exact hne h6
  have : Irrational ((c : ℝ) * Real.pi) := irrational_pi.ratCast_mul hc0
  rw [← h6] at this
  exact this ⟨(x - y) ^ 6, by push_cast; rfl⟩

/-- Redshifts below the last edge and not below the first are in exactly one bin. -/
theorem one_bin (lo dx x : ℝ) (n : ℕ) (hdx : 0 < dx) (h1 : lo ≤ x) (h2 : x < lo + dx * n) : ∃! b : ℕ, b < n ∧ lo + dx * b ≤ x ∧ x < lo + dx * (b + 1 : ℕ) := by
  have h0 : 0 ≤ (x - lo) / dx := div_nonneg (by linarith) hdx.le
  have hf1 := Nat.floor_le h0
  have hf2 := Nat.lt_floor_add_one ((x - lo) / dx)
  rw [le_div_iff₀ hdx] at hf1
  rw [div_lt_iff₀ hdx] at hf2
  have hlt : Nat.floor ((x - lo) / dx) < n := by
    rw [Nat.floor_lt h0, div_lt_iff₀ hdx]; linarith
  refine ⟨Nat.floor ((x - lo) / dx), ⟨hlt, by linarith, by push_cast; linarith⟩, ?_⟩
  rintro b ⟨-, hb1, hb2⟩
  symm
  rw [Nat.floor_eq_iff h0]
  push_cast at hb2
  exact ⟨by rw [le_div_iff₀ hdx]; linarith, by rw [div_lt_iff₀ hdx]; linarith⟩

/-- **Nothing lost**: of rational redshifts that are not all equal, each is in exactly one bin of the exact rule, for any layout without empty ranks. -/
theorem scott_counts_all (D : List (List ℚ)) (dx : ℝ) (E : List ℝ) (h : scott (ofRat D) = some (dx, E)) (x y : ℚ) (hx : x ∈ D.flatten) (hy : y ∈ D.flatten) (hxy : x ≠ y)
    (z : ℚ) (hz : z ∈ D.flatten) : ∃! b : ℕ, ∃ l u : ℝ, E[b]? = some l ∧ E[b + 1]? = some u ∧ l ≤ z ∧ (z : ℝ) < u := by
  obtain ⟨lo, hi, h1, h2, rfl, rfl⟩ := scott_some _ dx E h
  have hmem : ∀ q ∈ D.flatten, (q : ℝ) ∈ (ofRat D).flatten := fun q hq => by rw [ofRat_flatten]; exact List.mem_map_of_mem hq
  have hlh : lo < hi := by
    refine lt_of_le_of_ne (h1.2 h2.1) fun he => hxy ?_
    have a1 := h1.2 (hmem x hx); have a2 := h2.2 (hmem x hx); have a3 := h1.2 (hmem y hy); have a4 := h2.2 (hmem y hy)
    have : (x : ℝ) = y := by linarith
    exact_mod_cast this
  have hw : 0 < width (ofRat D) := lt_of_le_of_ne (width_nonneg _) fun he => hlh.ne ((width_zero_iff _ lo hi h1 h2).1 he.symm)
  have hc : 1 ≤ ⌈(hi - lo) / width (ofRat D)⌉ := Int.one_le_ceil_iff.2 (div_pos (sub_pos.2 hlh) hw)
  have hnb : ((nbins lo hi (width (ofRat D)) : ℕ) : ℝ) = (⌈(hi - lo) / width (ofRat D)⌉ : ℝ) := by
    rw [nbins, if_neg hw.ne', max_eq_right hc]
    have : ((⌈(hi - lo) / width (ofRat D)⌉.toNat : ℤ) : ℝ) = (⌈(hi - lo) / width (ofRat D)⌉ : ℝ) := by rw [Int.toNat_of_nonneg (by omega)]
    exact_mod_cast this
  set n := nbins lo hi (width (ofRat D)) with hndef
  have hle : hi ≤ lo + width (ofRat D) * n := by
    have := Int.le_ceil ((hi - lo) / width (ofRat D))
    rw [← hnb, div_le_iff₀ hw] at this
    linarith
  have hlast : hi < lo + width (ofRat D) * n := by
    refine lt_of_le_of_ne hle fun he => ?_
    have m1 := h1.1
    have m2 := h2.1
    simp only [Set.mem_setOf_eq, ofRat_flatten, List.mem_map] at m1 m2
    obtain ⟨p, hp, hp'⟩ := m1
    obtain ⟨q, hq, hq'⟩ := m2
    refine range_not_multiple D q p hq ?_ n ?_
    · rintro rfl; exact hlh.ne (hp'.symm.trans hq')
    · rw [hp', hq']; linarith
  obtain ⟨b, ⟨hb, hb1, hb2⟩, hu⟩ := one_bin lo (width (ofRat D)) z n hw (h1.2 (hmem z hz)) (lt_of_le_of_lt (h2.2 (hmem z hz)) hlast)
  have get : ∀ k, k < n + 1 → ((List.range (n + 1)).map fun k : ℕ => lo + width (ofRat D) * k)[k]? = some (lo + width (ofRat D) * k) := by
    intro k hk
    rw [List.getElem?_map, List.getElem?_range hk]; rfl
  refine ⟨b, ⟨_, _, get b (by omega), get (b + 1) (by omega), hb1, hb2⟩, ?_⟩
  rintro b' ⟨l, u, e1, e2, e3, e4⟩
  have hb' : b' + 1 < n + 1 := by
    have := (List.getElem?_eq_some_iff.1 e2).1
    simpa using this
  rw [get b' (by omega), Option.some.injEq] at e1
  rw [get (b' + 1) hb', Option.some.injEq] at e2
  exact hu b' ⟨by omega, by rw [e1]; exact e3, by rw [e2]; exact e4⟩

/-- **Equal redshifts** are all lost: both edges are that redshift. -/
theorem scott_equal (D : List (List ℝ)) (z : ℝ) (hD : D ≠ []) (hne : [] ∉ D) (h : ∀ x ∈ D.flatten, x = z) : scott D = some (0, [z, z]) := by
  obtain ⟨lo, hi, h1, h2, h3⟩ := scott_eq D hD hne
  have e1 : lo = z := h lo h1.1
  have e2 : hi = z := h hi h2.1
  have hw : width D = 0 := (width_zero_iff D lo hi h1 h2).2 (by rw [e1, e2])
  rw [h3, hw, e1, nbins, if_pos rfl]
  simp [List.range_succ]

/-! ## A case -/

/-- Four redshifts on two ranks. -/
def exZ : List (List ℚ) := [[0, 1], [1/2, 1/4]]

theorem ex_some : ∃ dx E, scott (ofRat exZ) = some (dx, E) := by
  obtain ⟨lo, hi, -, -, h⟩ := scott_eq (ofRat exZ) (by simp [exZ, ofRat]) (by simp [exZ, ofRat])
  exact ⟨_, _, h⟩

/-- Every one of them is in one bin, and there are at least 2/(6 sqrt(pi))^(1/3) bins. -/
theorem case_scott : ∃ dx E, scott (ofRat exZ) = some (dx, E) ∧
    (∀ z ∈ exZ.flatten, ∃! b : ℕ, ∃ l u : ℝ, E[b]? = some l ∧ E[b + 1]? = some u ∧ l ≤ z ∧ (z : ℝ) < u) ∧ 2 / (24 * Real.sqrt Real.pi / 4) ^ ((1 : ℝ) / 3) ≤ (E.length : ℝ) - 1 := by
  obtain ⟨dx, E, h⟩ := ex_some
  refine ⟨dx, E, h, fun z hz => scott_counts_all exZ dx E h 0 1 (by decide +kernel) (by decide +kernel) (by decide +kernel) z hz, ?_⟩
  have := (scott_nbins (ofRat exZ) dx E h 0 1 (by simp [exZ, ofRat]) (by simp [exZ, ofRat]) (by norm_num)).1
  have hl : ((ofRat exZ).flatten.length : ℝ) = 4 := by simp [exZ, ofRat]
  rw [hl] at this
  exact this

/-- The same redshifts on other ranks, shifted by 3 and doubled, have the edges moved likewise. -/
theorem case_moved : scott (moved 2 3 (ofRat [[1/4], [1/2, 1], [0]])) = (scott (ofRat exZ)).map fun r => (2 * r.1, r.2.map fun x => 2 * x + 3) := by
  rw [scott_moved 2 3 (by norm_num)]
  rw [scott_layout (ofRat [[1/4], [1/2, 1], [0]]) (ofRat exZ) ?_ (by simp [ofRat]) (by simp [ofRat]) (by simp [ofRat, exZ]) (by simp [ofRat, exZ])]
  rw [ofRat_flatten, ofRat_flatten]
  exact List.Perm.map _ (by decide +kernel)

/-- Equal redshifts on two ranks are lost, and an empty rank is an error. -/
theorem case_equal : scott [[1, 1], [1]] = some (0, [1, 1]) ∧ scott [[1, 2], []] = none :=
  ⟨scott_equal _ 1 (by simp) (by simp) (by simp), (scott_none _).2 (by simp)⟩

end NBK.Zhist.Scott
