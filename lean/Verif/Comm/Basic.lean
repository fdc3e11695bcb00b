import Mathlib.Algebra.BigOperators.Group.List.Basic

/-! Lemmas on distributed lists used by several topics (helpers only). -/
namespace NBK.Comm

/-- Cutting a list into consecutive windows and gluing the windows gives the list back. -/
theorem windows_flatten {α : Type} (S : List α) (sizes : List Nat) :
    (sizes.mapIdx fun r n => (S.drop ((sizes.take r).sum)).take n).flatten = S.take sizes.sum := by
  induction sizes generalizing S with
  | nil => simp
  | cons n ns ih =>
    simp only [List.mapIdx_cons, List.take_zero, List.sum_nil, List.drop_zero, List.flatten_cons,
      List.take_succ_cons, List.sum_cons]
    have h := ih (S.drop n)
    simp only [List.drop_drop] at h
    rw [h]
    exact List.take_add.symm

/-- The rows of rank `r` are a window of the global array. -/
theorem rank_window {α : Type} (D : List (List α)) (r : Nat) (d : List α) (h : D[r]? = some d) :
    d = (D.flatten.drop ((D.take r).flatten.length)).take d.length := by
  obtain ⟨hr, rfl⟩ := List.getElem?_eq_some_iff.mp h
  have hD : D = D.take r ++ D[r] :: D.drop (r + 1) := by simp
  have : D.flatten = (D.take r).flatten ++ (D[r] ++ (D.drop (r+1)).flatten) := by
    conv_lhs => rw [hD]
    simp only [List.flatten_append, List.flatten_cons]
  rw [this]
  simp

/-- The global array around rank `r`. -/
theorem flatten_split {α : Type} (D : List (List α)) (r : Nat) (hr : r < D.length) :
    D.flatten = (D.take r).flatten ++ D[r] ++ (D.drop (r + 1)).flatten := by
  have h := congrArg List.flatten (List.take_append_drop r D)
  rw [List.drop_eq_getElem_cons hr, List.flatten_append, List.flatten_cons] at h
  rw [List.append_assoc]; exact h.symm

theorem eraseDups_pairwise {R : Nat → Nat → Prop} (l : List Nat) (h : l.Pairwise R) :
    l.eraseDups.Pairwise fun a b => R a b ∧ a ≠ b := by
  generalize hn : l.length = n
  induction n using Nat.strongRecOn generalizing l with
  | ind n ih =>
    cases l with
    | nil => simp
    | cons a l =>
      rw [List.eraseDups_cons, List.pairwise_cons]
      rw [List.pairwise_cons] at h
      constructor
      · intro b hb
        rw [List.mem_eraseDups, List.mem_filter] at hb
        refine ⟨h.1 b hb.1, ?_⟩
        rintro rfl
        simp at hb
      · refine ih _ ?_ _ (h.2.filter _) rfl
        subst hn
        exact Nat.lt_succ_of_le (List.length_filter_le _ _)

theorem nodup_eraseDups (l : List Nat) : l.eraseDups.Nodup := by
  have := eraseDups_pairwise (R := fun _ _ => True) l (List.pairwise_of_forall fun _ _ => trivial)
  exact this.imp fun h => h.2

/-- Splitting a list by a key gives a permutation of it. -/
theorem split_perm {β : Type} [DecidableEq β] (X : List β) (f : β → Nat) (P : Nat) (h : ∀ x ∈ X, f x < P) :
    ((List.range P).flatMap fun r => X.filter fun x => f x = r).Perm X := by
  rw [List.perm_iff_count]
  intro a
  have key : ∀ m, ((List.range m).flatMap fun r => X.filter fun x => f x = r).count a = if f a < m then X.count a else 0 := by
    intro m
    induction m with
    | zero => simp
    | succ m ih =>
      rw [List.range_succ, List.flatMap_append, List.count_append, ih]
      simp only [List.flatMap_cons, List.flatMap_nil, List.append_nil]
      by_cases e : f a = m
      · have c1 : ¬ f a < m := by omega
        have c2 : f a < m + 1 := by omega
        rw [if_neg c1, if_pos c2, List.count_filter (by simpa using e)]; omega
      · have h0 : (X.filter fun x => f x = m).count a = 0 := by
          rw [List.count_eq_zero]
          intro hm
          have := (List.mem_filter.mp hm).2
          exact e (by simpa using this)
        rw [h0]
        by_cases c : f a < m
        · have c2 : f a < m + 1 := by omega
          rw [if_pos c, if_pos c2]; rfl
        · have c2 : ¬ f a < m + 1 := by omega
          rw [if_neg c, if_neg c2]
  rw [key]
  by_cases ha : a ∈ X
  · rw [if_pos (h a ha)]
  · rw [List.count_eq_zero.mpr ha]; simp

end NBK.Comm
