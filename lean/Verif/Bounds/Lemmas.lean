import Verif.Bounds.Model
import Mathlib.Data.List.Basic
import Mathlib.Order.MinMax

/-! Helper lemmas for bounds. -/
set_option linter.unusedSimpArgs false
namespace NBK.Bounds

theorem countDown_spec (s : Nat) (hs : 0 < s) : ∀ a, 0 < a →
    0 < (countDown s a).1 ∧ (countDown s a).1 * (countDown s a).2 = s ∧ 0 < (countDown s a).2 := by
  intro a
  induction a using Nat.strongRecOn with
  | _ a ih =>
    intro ha
    match a, ha with
    | 1, _ => simp [countDown, hs]
    | a + 2, _ =>
      rw [countDown]
      split
      · rename_i h
        have := Nat.mul_div_cancel' (Nat.dvd_of_mod_eq_zero h)
        refine ⟨by simp, this, Nat.pos_of_ne_zero ?_⟩
        simp only [ne_eq]
        intro h0; rw [h0] at this; simp at this; omega
      · exact ih (a + 1) (by omega) (by omega)

variable {α : Type} [LinearOrder α]

/-- Lower bound and upper bound of a list of rows. -/
def IsMin (m : WithTop α) (xs : List α) : Prop :=
  (∀ x ∈ xs, m ≤ (x : WithTop α)) ∧ (xs = [] → m = ⊤) ∧ (xs ≠ [] → ∃ x ∈ xs, m = (x : WithTop α))

def IsMax (m : WithBot α) (xs : List α) : Prop :=
  (∀ x ∈ xs, (x : WithBot α) ≤ m) ∧ (xs = [] → m = ⊥) ∧ (xs ≠ [] → ∃ x ∈ xs, m = (x : WithBot α))

theorem IsMin.append {m k : WithTop α} {xs ys : List α} (h₁ : IsMin m xs) (h₂ : IsMin k ys) :
    IsMin (min m k) (xs ++ ys) := by
  refine ⟨?_, ?_, ?_⟩
  · intro x hx
    rcases List.mem_append.mp hx with h | h
    · exact le_trans (min_le_left _ _) (h₁.1 x h)
    · exact le_trans (min_le_right _ _) (h₂.1 x h)
  · intro h
    rw [List.append_eq_nil_iff] at h
    rw [h₁.2.1 h.1, h₂.2.1 h.2]; simp
  · intro h
    rcases min_choice m k with hm | hm
    · rw [hm]
      by_cases hx : xs = []
      · have hy : ys ≠ [] := fun hy => h (by simp [hx, hy])
        have : m = ⊤ := h₁.2.1 hx
        have hk : k = ⊤ := by
          have := min_le_right m k
          rw [hm, ‹m = ⊤›] at this
          exact top_le_iff.mp this
        obtain ⟨y, hy', hyk⟩ := h₂.2.2 hy
        exact ⟨y, by simp [hy'], by rw [this, ← hk, hyk]⟩
      · obtain ⟨x, hx', hxm⟩ := h₁.2.2 hx
        exact ⟨x, by simp [hx'], hxm⟩
    · rw [hm]
      by_cases hy : ys = []
      · have hx : xs ≠ [] := fun hx => h (by simp [hx, hy])
        have : k = ⊤ := h₂.2.1 hy
        have hk : m = ⊤ := by
          have := min_le_left m k
          rw [hm, ‹k = ⊤›] at this
          exact top_le_iff.mp this
        obtain ⟨y, hy', hyk⟩ := h₁.2.2 hx
        exact ⟨y, by simp [hy'], by rw [this, ← hk, hyk]⟩
      · obtain ⟨x, hx', hxm⟩ := h₂.2.2 hy
        exact ⟨x, by simp [hx'], hxm⟩

theorem IsMax.append {m k : WithBot α} {xs ys : List α} (h₁ : IsMax m xs) (h₂ : IsMax k ys) :
    IsMax (max m k) (xs ++ ys) := by
  refine ⟨?_, ?_, ?_⟩
  · intro x hx
    rcases List.mem_append.mp hx with h | h
    · exact le_trans (h₁.1 x h) (le_max_left _ _)
    · exact le_trans (h₂.1 x h) (le_max_right _ _)
  · intro h
    rw [List.append_eq_nil_iff] at h
    rw [h₁.2.1 h.1, h₂.2.1 h.2]; simp
  · intro h
    rcases max_choice m k with hm | hm
    · rw [hm]
      by_cases hx : xs = []
      · have hy : ys ≠ [] := fun hy => h (by simp [hx, hy])
        have : m = ⊥ := h₁.2.1 hx
        have hk : k = ⊥ := by
          have := le_max_right m k
          rw [hm, ‹m = ⊥›] at this
          exact le_bot_iff.mp this
        obtain ⟨y, hy', hyk⟩ := h₂.2.2 hy
        exact ⟨y, by simp [hy'], by rw [this, ← hk, hyk]⟩
      · obtain ⟨x, hx', hxm⟩ := h₁.2.2 hx
        exact ⟨x, by simp [hx'], hxm⟩
    · rw [hm]
      by_cases hy : ys = []
      · have hx : xs ≠ [] := fun hx => h (by simp [hx, hy])
        have : k = ⊥ := h₂.2.1 hy
        have hk : m = ⊥ := by
          have := le_max_left m k
          rw [hm, ‹k = ⊥›] at this
          exact le_bot_iff.mp this
        obtain ⟨y, hy', hyk⟩ := h₁.2.2 hx
        exact ⟨y, by simp [hy'], by rw [this, ← hk, hyk]⟩
      · obtain ⟨x, hx', hxm⟩ := h₂.2.2 hy
        exact ⟨x, by simp [hx'], hxm⟩

theorem isMin_nil : IsMin (⊤ : WithTop α) [] := ⟨by simp, by simp, by simp⟩
theorem isMax_nil : IsMax (⊥ : WithBot α) [] := ⟨by simp, by simp, by simp⟩

theorem isMin_perm {m : WithTop α} {xs ys : List α} (h : IsMin m xs) (hm : ∀ x, x ∈ xs ↔ x ∈ ys) : IsMin m ys := by
  have hnil : ys = [] ↔ xs = [] := by
    rw [List.eq_nil_iff_forall_not_mem, List.eq_nil_iff_forall_not_mem]
    exact forall_congr' fun x => not_congr (hm x).symm
  refine ⟨fun x hx => h.1 x ((hm x).mpr hx), fun e => h.2.1 (hnil.mp e), fun e => ?_⟩
  obtain ⟨x, hx, e⟩ := h.2.2 (fun h => e (hnil.mpr h))
  exact ⟨x, (hm x).mp hx, e⟩

theorem isMax_perm {m : WithBot α} {xs ys : List α} (h : IsMax m xs) (hm : ∀ x, x ∈ xs ↔ x ∈ ys) : IsMax m ys := by
  have hnil : ys = [] ↔ xs = [] := by
    rw [List.eq_nil_iff_forall_not_mem, List.eq_nil_iff_forall_not_mem]
    exact forall_congr' fun x => not_congr (hm x).symm
  refine ⟨fun x hx => h.1 x ((hm x).mpr hx), fun e => h.2.1 (hnil.mp e), fun e => ?_⟩
  obtain ⟨x, hx, e⟩ := h.2.2 (fun h => e (hnil.mpr h))
  exact ⟨x, (hm x).mp hx, e⟩

theorem npMin_spec (xs : List α) (h : xs ≠ []) : ∃ m, npMin xs = .ok m ∧ IsMin (m : WithTop α) xs := by
  cases xs with
  | nil => exact absurd rfl h
  | cons x xs =>
    refine ⟨_, rfl, ?_⟩
    have : ∀ (ys : List α) (zs : List α) (y : α), IsMin (y : WithTop α) zs → zs ≠ [] →
        IsMin ((ys.foldl min y : α) : WithTop α) (zs ++ ys) := by
      intro ys
      induction ys with
      | nil => intro zs y h _; simpa using h
      | cons w ys ih =>
        intro zs y h hne
        have hw : IsMin (w : WithTop α) [w] := ⟨by simp, by simp, by simp⟩
        have := h.append hw
        have h2 := ih (zs ++ [w]) (min y w) (by rw [WithTop.coe_min]; exact this) (by simp)
        simpa using h2
    exact this xs [x] x ⟨by simp, by simp, by simp⟩ (by simp)

theorem npMax_spec (xs : List α) (h : xs ≠ []) : ∃ m, npMax xs = .ok m ∧ IsMax (m : WithBot α) xs := by
  cases xs with
  | nil => exact absurd rfl h
  | cons x xs =>
    refine ⟨_, rfl, ?_⟩
    have : ∀ (ys : List α) (zs : List α) (y : α), IsMax (y : WithBot α) zs → zs ≠ [] →
        IsMax ((ys.foldl max y : α) : WithBot α) (zs ++ ys) := by
      intro ys
      induction ys with
      | nil => intro zs y h _; simpa using h
      | cons w ys ih =>
        intro zs y h hne
        have hw : IsMax (w : WithBot α) [w] := ⟨by simp, by simp, by simp⟩
        have := h.append hw
        have h2 := ih (zs ++ [w]) (max y w) (by rw [WithBot.coe_max]; exact this) (by simp)
        simpa using h2
    exact this xs [x] x ⟨by simp, by simp, by simp⟩ (by simp)

/-- The loop succeeds iff no visited chunk is empty (or the rank is empty), and then yields the extrema. -/
theorem rankLoop_spec (c : Nat) (rows : List (α × Bool)) (hne : rows ≠ []) :
    ∀ (is : List Nat) (acc : WithTop α × WithBot α) (seen : List α), IsMin acc.1 seen → IsMax acc.2 seen →
    (∀ i ∈ is, chunk rows i c ≠ []) →
    ∃ p, rankLoop c rows is acc = .ok p ∧ IsMin p.1 (seen ++ is.flatMap (chunk rows · c))
      ∧ IsMax p.2 (seen ++ is.flatMap (chunk rows · c)) := by
  intro is
  induction is with
  | nil => intro acc seen h1 h2 _; exact ⟨acc, rfl, by simpa using h1, by simpa using h2⟩
  | cons i is ih =>
    intro acc seen h1 h2 hall
    obtain ⟨m, hm, hm'⟩ := npMin_spec _ (hall i (by simp))
    obtain ⟨M, hM, hM'⟩ := npMax_spec _ (hall i (by simp))
    have hlen : rows.length ≠ 0 := by simpa using hne
    obtain ⟨p, hp, hp1, hp2⟩ := ih (min (m : WithTop α) acc.1, max (M : WithBot α) acc.2) (seen ++ chunk rows i c)
      (by rw [min_comm]; exact h1.append hm') (by rw [max_comm]; exact h2.append hM')
      (fun j hj => hall j (by simp [hj]))
    refine ⟨p, ?_, by simpa using hp1, by simpa using hp2⟩
    rw [rankLoop, if_pos hlen, hm, hM]
    exact hp

theorem rankLoop_empty (c : Nat) (is : List Nat) (acc : WithTop α × WithBot α) :
    rankLoop c ([] : List (α × Bool)) is acc = .ok acc := by
  induction is generalizing acc with
  | nil => rfl
  | cons i is ih => simp [rankLoop, ih]

theorem rankLoop_error (c : Nat) (rows : List (α × Bool)) (hne : rows ≠ []) (i : Nat) (is : List Nat) (hi : i ∈ is)
    (he : chunk rows i c = []) (acc : WithTop α × WithBot α) : rankLoop c rows is acc = .error .valueError := by
  have hlen : rows.length ≠ 0 := by simpa using hne
  induction is generalizing acc with
  | nil => simp at hi
  | cons j js ih =>
    rw [rankLoop, if_pos hlen]
    by_cases hj : chunk rows j c = []
    · rw [hj]; rfl
    · obtain ⟨m, hm, -⟩ := npMin_spec _ hj
      obtain ⟨M, hM, -⟩ := npMax_spec _ hj
      rw [hm, hM]
      have : i ∈ js := by
        rcases List.mem_cons.mp hi with rfl | h
        · exact absurd he hj
        · exact h
      exact ih this _

theorem mem_chunks (c n : Nat) (hc : 0 < c) (rows : List (α × Bool)) (hn : rows.length ≤ n) (x : α) :
    x ∈ (starts n c).flatMap (chunk rows · c) ↔ (x, true) ∈ rows := by
  simp only [starts, List.mem_flatMap, List.mem_map, List.mem_range, chunk, List.mem_filter]
  constructor
  · rintro ⟨i, _, ⟨y, b⟩, ⟨hmem, hb⟩, rfl⟩
    simp only at hb; subst hb
    exact List.mem_of_mem_drop (List.mem_of_mem_take hmem)
  · intro h
    obtain ⟨k, hk, hx⟩ := List.mem_iff_getElem.mp h
    refine ⟨k / c * c, ⟨k / c, ?_, rfl⟩, (x, true), ⟨?_, rfl⟩, rfl⟩
    · rw [Nat.lt_iff_add_one_le, Nat.le_div_iff_mul_le hc]
      have := Nat.div_mul_le_self k c
      rw [Nat.succ_mul]; omega
    · rw [List.mem_iff_getElem?]
      refine ⟨k % c, ?_⟩
      rw [List.getElem?_take, if_pos (Nat.mod_lt k hc), List.getElem?_drop,
        show k / c * c + k % c = k by rw [Nat.mul_comm]; exact Nat.div_add_mod k c, List.getElem?_eq_getElem hk, hx]

theorem foldl_max_ge (l : List Nat) (a : Nat) : a ≤ l.foldl max a ∧ ∀ x ∈ l, x ≤ l.foldl max a := by
  induction l generalizing a with
  | nil => simp
  | cons b l ih =>
    have h := ih (max a b)
    refine ⟨le_trans (le_max_left _ _) h.1, ?_⟩
    intro x hx
    rcases List.mem_cons.mp hx with rfl | hx
    · exact le_trans (le_max_right _ _) h.1
    · exact h.2 x hx

end NBK.Bounds
