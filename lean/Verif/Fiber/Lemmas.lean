import Verif.Fiber.Model
import Mathlib.Data.List.Nodup
import Mathlib.Data.List.Perm.Basic
import Mathlib.Data.List.Sort
import Mathlib.Tactic.Linarith
import Mathlib.Order.Basic

/-! Lemmas on the fiber assignment (helpers only). -/
set_option linter.unusedSimpArgs false
namespace NBK.Fiber
variable {α : Type} [LinearOrder α]

/-- A random choice returns one of the given values. -/
def IsPick (pick : Nat → List Nat → Nat) : Prop := ∀ s l, l ≠ [] → pick s l ∈ l

theorem le_foldl_max (l : List Nat) (a : Nat) : a ≤ l.foldl max a ∧ ∀ x ∈ l, x ≤ l.foldl max a := by
  induction l generalizing a with
  | nil => simp
  | cons b l ih =>
    obtain ⟨h1, h2⟩ := ih (max a b)
    rw [List.foldl_cons]
    refine ⟨by omega, ?_⟩
    intro x hx
    rcases List.mem_cons.mp hx with rfl | hx
    · omega
    · exact h2 x hx

theorem foldl_max_mem (l : List Nat) (a : Nat) : l.foldl max a = a ∨ l.foldl max a ∈ l := by
  induction l generalizing a with
  | nil => simp
  | cons b l ih =>
    rw [List.foldl_cons]
    rcases ih (max a b) with h | h
    · rw [h]
      rcases Nat.le_total a b with e | e
      · right; rw [Nat.max_eq_right e]; simp
      · left; exact Nat.max_eq_left e
    · right; simp [h]

theorem mem_cands (d : Nat → Nat → α) (R : α) (group : List Nat) (x : Nat) (h : x ∈ cands d R group) :
    x ∈ group ∧ ∀ y ∈ group, nColl d R group y ≤ nColl d R group x := by
  unfold cands at h
  obtain ⟨h1, h2⟩ := List.mem_filter.mp (List.mem_filter.mp h).1
  refine ⟨h1, fun y hy => ?_⟩
  rw [decide_eq_true_eq] at h2
  rw [h2]
  exact (le_foldl_max _ 0).2 _ (List.mem_map_of_mem hy)

theorem cands_ne (d : Nat → Nat → α) (R : α) (group : List Nat) (h : group ≠ []) : cands d R group ≠ [] := by
  unfold cands
  dsimp only
  obtain ⟨idx, hidx⟩ : ∃ idx, idx = group.filter fun a => decide (nColl d R group a = (group.map (nColl d R group)).foldl max 0) := ⟨_, rfl⟩
  rw [← hidx]
  have hne : idx ≠ [] := by
    rcases foldl_max_mem (group.map (nColl d R group)) 0 with e | e
    · obtain ⟨a, ha⟩ := List.exists_mem_of_ne_nil _ h
      have : a ∈ idx := by
        rw [hidx]; refine List.mem_filter.mpr ⟨ha, ?_⟩
        have := (le_foldl_max (group.map (nColl d R group)) 0).2 _ (List.mem_map_of_mem ha)
        rw [decide_eq_true_eq]; omega
      intro h0; rw [h0] at this; cases this
    · obtain ⟨a, ha, e'⟩ := List.mem_map.mp e
      have : a ∈ idx := by rw [hidx]; exact List.mem_filter.mpr ⟨ha, by rw [decide_eq_true_eq]; exact e'⟩
      intro h0; rw [h0] at this; cases this
  cases hm : (idx.map (nOther d R group)).min? with
  | none => rw [List.min?_eq_none_iff] at hm; exact absurd (List.map_eq_nil_iff.mp hm) hne
  | some m =>
    obtain ⟨a, ha, rfl⟩ := List.mem_map.mp (List.min?_mem hm)
    have : a ∈ idx.filter fun a => decide (some (nOther d R group a) = some (nOther d R group a)) := List.mem_filter.mpr ⟨ha, by simp⟩
    intro h0
    have : a ∈ idx.filter fun b => decide (some (nOther d R group b) = some (nOther d R group a)) := List.mem_filter.mpr ⟨ha, by simp⟩
    rw [h0] at this; cases this

theorem nColl_pos (d : Nat → Nat → α) (R : α) (group : List Nat) (x : Nat) :
    nColl d R group x > 0 ↔ ∃ y ∈ group, collides d R y x = true := by
  unfold nColl
  rw [gt_iff_lt, List.length_pos_iff]
  simp [List.filter_eq_nil_iff]

theorem loop_free (d : Nat → Nat → α) (R : α) (pick : Nat → List Nat → Nat) (f : Nat) (group c : List Nat)
    (h : ∀ x ∈ group, ∀ y ∈ group, collides d R x y = false) (hp : IsPick pick) : loop d R pick f group c = c := by
  induction f generalizing group with
  | zero => rfl
  | succ f ih =>
    unfold loop
    split
    · rename_i hl
      have hne : group ≠ [] := by intro h0; rw [h0] at hl; simp at hl
      have hx := (mem_cands d R group _ (hp group.length _ (cands_ne d R group hne))).1
      dsimp only
      rw [if_neg]
      · exact ih _ (fun x hx y hy => h x (List.mem_of_mem_erase hx) y (List.mem_of_mem_erase hy))
      · rw [nColl_pos]
        rintro ⟨y, hy, hc⟩
        rw [h y hy _ hx] at hc; cases hc
    · rfl

/-- The outcome of the loop: `t` are the newly collided objects, in the order of their removal. -/
theorem loop_spec (d : Nat → Nat → α) (R : α) (pick : Nat → List Nat → Nat) (hp : IsPick pick) (f : Nat) (group c : List Nat)
    (hn : group.Nodup) (hf : group.length ≤ f + 1) :
    ∃ t, loop d R pick f group c = c ++ t ∧ t.Nodup ∧ (∀ x ∈ t, x ∈ group) ∧
      (∀ x ∈ group, x ∉ t → ∀ y ∈ group, y ∉ t → collides d R x y = false) ∧
      (group ≠ [] → ∃ x ∈ group, x ∉ t) ∧
      ∀ p x s, t = p ++ x :: s → ∃ y ∈ group, y ∉ p ∧ collides d R y x = true := by
  induction f generalizing group c with
  | zero =>
    refine ⟨[], by simp [loop], List.nodup_nil, by simp, ?_, ?_, by simp⟩
    · intro x hx _ y hy _
      match group, hf, hx, hy with
      | [a], _, hx, hy =>
        simp at hx hy; subst hx; subst hy; simp [collides]
    · intro h
      obtain ⟨a, ha⟩ := List.exists_mem_of_ne_nil _ h
      exact ⟨a, ha, by simp⟩
  | succ f ih =>
    unfold loop
    split
    · rename_i hl
      have hne : group ≠ [] := by intro h0; rw [h0] at hl; simp at hl
      obtain ⟨x, hx⟩ : ∃ x, x = pick group.length (cands d R group) := ⟨_, rfl⟩
      have hxc := mem_cands d R group _ (hp group.length _ (cands_ne d R group hne))
      rw [← hx] at hxc
      dsimp only
      rw [← hx]
      by_cases hcol : nColl d R group x > 0
      · rw [if_pos hcol]
        have hle : (group.erase x).length ≤ f + 1 := by rw [List.length_erase_of_mem hxc.1]; omega
        obtain ⟨t, h1, h2, h3, h4, h5, h6⟩ := ih (group.erase x) (c ++ [x]) (hn.erase x) hle
        have hxt : x ∉ t := fun h => by
          have := h3 x h
          rw [hn.mem_erase_iff] at this; exact this.1 rfl
        refine ⟨x :: t, by rw [h1]; simp, List.nodup_cons.mpr ⟨hxt, h2⟩, ?_, ?_, ?_, ?_⟩
        · intro y hy
          rcases List.mem_cons.mp hy with rfl | hy
          · exact hxc.1
          · exact List.mem_of_mem_erase (h3 y hy)
        · intro a ha hat b hb hbt
          rw [List.mem_cons, not_or] at hat hbt
          exact h4 a (hn.mem_erase_iff.mpr ⟨hat.1, ha⟩) hat.2 b (hn.mem_erase_iff.mpr ⟨hbt.1, hb⟩) hbt.2
        · intro _
          have : group.erase x ≠ [] := by
            intro h0
            have := congrArg List.length h0
            rw [List.length_erase_of_mem hxc.1] at this
            simp at this; omega
          obtain ⟨y, hy, hyt⟩ := h5 this
          have := hn.mem_erase_iff.mp hy
          exact ⟨y, this.2, by rw [List.mem_cons, not_or]; exact ⟨this.1, hyt⟩⟩
        · intro p z s e
          cases p with
          | nil =>
            simp at e
            rw [← e.1]
            obtain ⟨y, hy, hc⟩ := (nColl_pos d R group x).mp hcol
            exact ⟨y, hy, by simp, hc⟩
          | cons a p =>
            simp at e
            obtain ⟨y, hy, hyp, hc⟩ := h6 p z s e.2
            have := hn.mem_erase_iff.mp hy
            refine ⟨y, this.2, ?_, hc⟩
            rw [List.mem_cons, not_or, ← e.1]
            exact ⟨this.1, hyp⟩
      · rw [if_neg hcol]
        have hfree : ∀ a ∈ group, ∀ b ∈ group, collides d R a b = false := by
          intro a ha b hb
          by_contra hc
          have h1 : nColl d R group b > 0 := (nColl_pos d R group b).mpr ⟨a, ha, by simpa using hc⟩
          have := hxc.2 b hb
          omega
        rw [loop_free d R pick f _ c (fun a ha b hb => hfree a (List.mem_of_mem_erase ha) b (List.mem_of_mem_erase hb)) hp]
        refine ⟨[], by simp, List.nodup_nil, by simp, fun a ha _ b hb _ => hfree a ha b hb, ?_, by simp⟩
        intro _; exact ⟨x, hxc.1, by simp⟩
    · rename_i hl
      refine ⟨[], by simp, List.nodup_nil, by simp, ?_, ?_, by simp⟩
      · intro x hx _ y hy _
        match group, hl, hx, hy with
        | [a], _, hx, hy =>
          simp at hx hy; subst hx; subst hy; simp [collides]
        | a :: b :: l, hl, _, _ => simp at hl
      · intro h
        obtain ⟨a, ha⟩ := List.exists_mem_of_ne_nil _ h
        exact ⟨a, ha, by simp⟩

theorem argmin_spec (f : Nat → α) (l : List Nat) (h : l ≠ []) : ∃ j ∈ l, argmin f l = some j ∧ ∀ k ∈ l, f j ≤ f k := by
  cases l with
  | nil => exact absurd rfl h
  | cons x xs =>
    have key : ∀ (xs : List Nat) (x : Nat), ∃ j ∈ x :: xs, xs.foldl (fun m y => if f y < f m then y else m) x = j ∧ ∀ k ∈ x :: xs, f j ≤ f k := by
      intro xs
      induction xs with
      | nil => intro x; exact ⟨x, by simp, rfl, by simp⟩
      | cons y xs ih =>
        intro x
        rw [List.foldl_cons]
        by_cases c : f y < f x
        · rw [if_pos c]
          obtain ⟨j, h1, h2, h3⟩ := ih y
          refine ⟨j, by simp at h1 ⊢; tauto, h2, ?_⟩
          intro k hk
          rcases List.mem_cons.mp hk with rfl | hk
          · exact le_trans (h3 y (by simp)) (le_of_lt c)
          · exact h3 k hk
        · rw [if_neg c]
          obtain ⟨j, h1, h2, h3⟩ := ih x
          refine ⟨j, by simp at h1 ⊢; tauto, h2, ?_⟩
          intro k hk
          rcases List.mem_cons.mp hk with rfl | hk
          · exact h3 _ (by simp)
          · rcases List.mem_cons.mp hk with rfl | hk
            · exact le_trans (h3 x (by simp)) (not_lt.mp c)
            · exact h3 k (by simp [hk])
    obtain ⟨j, h1, h2, h3⟩ := key xs x
    exact ⟨j, h1, congrArg some h2, h3⟩

theorem mapM_ok {β γ : Type} (f : β → Except Err γ) (g : β → γ) (l : List β) (h : ∀ x ∈ l, f x = .ok (g x)) :
    l.mapM f = .ok (l.map g) := by
  induction l with
  | nil => rfl
  | cons a l ih =>
    rw [List.mapM_cons, h a (by simp), ih fun x hx => h x (by simp [hx])]
    rfl

theorem filter_range_getElem (p : Nat → Bool) (N a : Nat) (ha : a < N) (hp : p a = true) :
    ((List.range N).filter p)[(((List.range N).map p).take a).count true]? = some a := by
  have e : ((List.range N).map p).take a = (List.range a).map p := by
    rw [← List.map_take, List.take_range, Nat.min_eq_left (Nat.le_of_lt ha)]
  have e2 : ((List.range a).map p).count true = ((List.range a).filter p).length := by
    rw [List.count_eq_countP, List.countP_map, List.countP_eq_length_filter]
    congr 1
    apply List.filter_congr
    intro x _; simp
  have e3 : List.range N = List.range a ++ a :: (List.range (N - a - 1)).map (a + 1 + ·) := by
    have h1 : N = a + (1 + (N - a - 1)) := by omega
    conv_lhs => rw [h1, List.range_add, List.range_add]
    simp [List.map_map, Function.comp_def, Nat.add_assoc]
  rw [e, e2, e3, List.filter_append, List.getElem?_append_right (Nat.le_refl _), List.filter_cons, if_pos hp]
  simp

/-- What the assignment in a multiplet guarantees: flags and nearest neighbors. -/
theorem assignMultiplets_spec (d : Nat → Nat → α) (R : α) (pick : Nat → List Nat → Nat) (hp : IsPick pick) (N : Nat) (hN : 0 < N) :
    ∃ t : List Nat, ∃ nbr : Nat → Nat,
      assignMultiplets d R pick N = .ok ((List.range N).map fun i => decide (i ∈ t), ((List.range N).filter fun i => decide (i ∈ t)).map nbr) ∧
      (∀ a < N, a ∉ t → ∀ b < N, b ∉ t → a ≠ b → ¬ d a b ≤ R) ∧
      (∀ a < N, a ∈ t → nbr a < N ∧ nbr a ∉ t ∧ ∀ k < N, k ∉ t → d a (nbr a) ≤ d a k) ∧
      (∃ a < N, a ∉ t) ∧ (∀ x ∈ t, x < N) ∧ t = loop d R pick N (List.range N) [] ∧ t.Nodup ∧
      (∀ p x s, t = p ++ x :: s → ∃ y < N, y ≠ x ∧ y ∉ p ∧ d y x ≤ R) := by
  obtain ⟨t, h1, h2, h3, h4, h5, h6⟩ := loop_spec d R pick hp N (List.range N) [] List.nodup_range (by simp)
  rw [List.nil_append] at h1
  obtain ⟨un, hun⟩ : ∃ un, un = (List.range N).filter fun i => decide (i ∉ t) := ⟨_, rfl⟩
  have hmem : ∀ k, k ∈ un ↔ k < N ∧ k ∉ t := by intro k; rw [hun, List.mem_filter]; simp
  obtain ⟨x0, hx0, hx0t⟩ := h5 (by simp; omega)
  have hne : un ≠ [] := by
    intro h0
    have := (hmem x0).mpr ⟨by simpa using hx0, hx0t⟩
    rw [h0] at this; cases this
  choose nbr hn1 hn2 hn3 using fun i => argmin_spec (d i) un hne
  have hsort : (t.mergeSort fun a b => decide (a ≤ b)) = (List.range N).filter fun i => decide (i ∈ t) := by
    have hp1 : (t.mergeSort fun a b => decide (a ≤ b)).Perm ((List.range N).filter fun i => decide (i ∈ t)) := by
      refine (List.mergeSort_perm _ _).trans ?_
      rw [List.perm_ext_iff_of_nodup h2 (List.nodup_range.filter _)]
      intro x
      rw [List.mem_filter]
      simp only [decide_eq_true_eq]
      exact ⟨fun h => ⟨h3 x h, h⟩, fun h => h.2⟩
    have hs := List.pairwise_mergeSort (le := fun a b : Nat => decide (a ≤ b)) (by intro a b c; simp; omega) (by intro a b; simp; omega) t
    exact List.Perm.eq_of_pairwise (le := fun a b : Nat => a ≤ b) (fun a b _ _ h1 h2 => Nat.le_antisymm h1 h2)
      (hs.imp fun h => by simpa using h) ((List.pairwise_lt_range.imp fun h => Nat.le_of_lt h).filter _) hp1
  refine ⟨t, nbr, ?_, ?_, ?_, ⟨x0, by simpa using hx0, hx0t⟩, fun x hx => by simpa using h3 x hx, h1.symm, h2, ?_⟩
  · unfold assignMultiplets
    rw [h1]
    dsimp only
    rw [hsort, ← hun, mapM_ok _ nbr _ (fun i _ => by rw [hn2])]
    rfl
  · intro a ha hat b hb hbt hab hd
    have := h4 a (by simpa using ha) hat b (by simpa using hb) hbt
    simp [collides, hab, hd] at this
  · intro a _ _
    have := (hmem _).mp (hn1 a)
    exact ⟨this.1, this.2, fun k hk hkt => hn3 a k ((hmem k).mpr ⟨hk, hkt⟩)⟩
  · intro p x s e
    obtain ⟨y, hy, hyp, hc⟩ := h6 p x s e
    simp [collides] at hc
    exact ⟨y, by simpa using hy, hc.1, hyp, hc.2⟩

end NBK.Fiber
