import Verif.Fof.Model
import Mathlib.Data.List.Perm.Basic
import Mathlib.Tactic.Linarith
import Mathlib.Algebra.BigOperators.Group.List.Basic

/-! Lemmas for the friends-of-friends model. -/
namespace NBK.Fof
set_option linter.unusedSimpArgs false

theorem mapM_ok {α β : Type} (f : α → Except Err β) (g : α → β) (l : List α) (h : ∀ x ∈ l, f x = .ok (g x)) :
    l.mapM f = .ok (l.map g) := by
  induction l with
  | nil => rfl
  | cons a l ih =>
    rw [List.mapM_cons, h a (by simp), ih fun x hx => h x (by simp [hx])]
    rfl

theorem mapM_congr {α β : Type} (f g : α → Except Err β) (l : List α) (h : ∀ x ∈ l, f x = g x) :
    l.mapM f = l.mapM g := by
  induction l with
  | nil => rfl
  | cons a l ih =>
    rw [List.mapM_cons, List.mapM_cons, h a (by simp), ih fun x hx => h x (by simp [hx])]

theorem takeAt_ok {β : Type} (x : List β) (idx : List Nat) (h : ∀ i ∈ idx, i < x.length) :
    takeAt x idx = .ok (idx.filterMap (x[·]?)) := by
  unfold takeAt
  induction idx with
  | nil => rfl
  | cons a l ih =>
    have ha := h a (by simp)
    rw [List.mapM_cons, ih fun i hi => h i (by simp [hi])]
    simp only [List.getElem?_eq_getElem ha, List.filterMap_cons_some (List.getElem?_eq_getElem ha)]
    rfl

theorem filterMap_drop {α β : Type} (f : α → Option β) (l : List α) (h : ∀ x ∈ l, (f x).isSome) (a : Nat) :
    (l.filterMap f).drop a = (l.drop a).filterMap f := by
  induction l generalizing a with
  | nil => simp
  | cons x l ih =>
    obtain ⟨y, hy⟩ := Option.isSome_iff_exists.mp (h x (by simp))
    cases a with
    | zero => rfl
    | succ a => simp only [List.filterMap_cons_some hy, List.drop_succ_cons]; exact ih (fun x hx => h x (by simp [hx])) a

theorem filterMap_take {α β : Type} (f : α → Option β) (l : List α) (h : ∀ x ∈ l, (f x).isSome) (a : Nat) :
    (l.filterMap f).take a = (l.take a).filterMap f := by
  induction l generalizing a with
  | nil => simp
  | cons x l ih =>
    obtain ⟨y, hy⟩ := Option.isSome_iff_exists.mp (h x (by simp))
    cases a with
    | zero => rfl
    | succ a =>
      simp only [List.filterMap_cons_some hy, List.take_succ_cons]; rw [ih (fun x hx => h x (by simp [hx])) a]

theorem filterMap_length_all {α β : Type} (f : α → Option β) (l : List α) (h : ∀ x ∈ l, (f x).isSome) :
    (l.filterMap f).length = l.length := by
  induction l with
  | nil => simp
  | cons x l ih =>
    obtain ⟨y, hy⟩ := Option.isSome_iff_exists.mp (h x (by simp))
    simp only [List.filterMap_cons_some hy, List.length_cons, ih fun x hx => h x (by simp [hx])]

/-- In a sorted list the entries with key `i` are a window. -/
theorem sorted_window {α : Type} (key : α → Nat) (l : List α) (h : l.Pairwise fun a b => key a ≤ key b) (i : Nat) :
    (l.drop (l.countP fun a => key a < i)).take (l.countP fun a => key a = i) = l.filter fun a => key a = i := by
  induction l with
  | nil => rfl
  | cons a l ih =>
    obtain ⟨ha, hl⟩ := List.pairwise_cons.mp h
    rcases Nat.lt_trichotomy (key a) i with h1 | h1 | h1
    · have h2 : ¬ key a = i := by omega
      simp only [List.countP_cons, List.filter_cons, h1, h2, decide_true, decide_false, if_true, if_false,
        Bool.false_eq_true, Nat.add_zero, List.drop_succ_cons]
      exact ih hl
    · have h2 : ¬ key a < i := by omega
      have h0 : l.countP (fun a => decide (key a < i)) = 0 := by
        rw [List.countP_eq_zero]; intro b hb; have := ha b hb; simp; omega
      have := ih hl
      rw [h0, List.drop_zero] at this
      simp only [List.countP_cons, List.filter_cons, h1, h2, decide_true, decide_false, if_true, if_false,
        Bool.false_eq_true, h0, Nat.zero_add, List.drop_zero, List.take_succ_cons]
      simp only [lt_irrefl, decide_false, Bool.false_eq_true, if_false, List.drop_zero, List.take_succ_cons, this]
    · have h2 : ¬ key a = i := by omega
      have h3 : ¬ key a < i := by omega
      have h0 : l.countP (fun a => decide (key a = i)) = 0 := by
        rw [List.countP_eq_zero]; intro b hb; have := ha b hb; simp; omega
      have h0' : l.filter (fun a => decide (key a = i)) = [] := by
        rw [List.filter_eq_nil_iff]; intro b hb; have := ha b hb; simp; omega
      simp [List.countP_cons, List.filter_cons, h2, h0, h0']

theorem sum_counts (labels : List Nat) (i : Nat) :
    ((List.range i).map fun v => labels.count v).sum = labels.countP fun x => x < i := by
  induction i with
  | zero => simp
  | succ i ih =>
    rw [List.range_succ, List.map_append, List.sum_append, ih]
    simp only [List.map_cons, List.map_nil, List.sum_cons, List.sum_nil, Nat.add_zero]
    clear ih
    induction labels with
    | nil => rfl
    | cons x l ih =>
      simp only [List.countP_cons, List.count_cons]
      rw [← ih]
      rcases Nat.lt_trichotomy x i with h | h | h
      · have h1 : x < i + 1 := by omega
        have h2 : ¬ x = i := by omega
        simp [h, h1, h2]; omega
      · subst h; simp; omega
      · have h1 : ¬ x < i + 1 := by omega
        have h2 : ¬ x = i := by omega
        have h3 : ¬ x < i := by omega
        simp [h1, h2, h3]

/-- One more than the largest label. -/
def bound (labels : List Nat) : Nat := labels.foldr (fun x m => max (x + 1) m) 0

theorem lt_bound (labels : List Nat) (x : Nat) (h : x ∈ labels) : x < bound labels := by
  induction labels with
  | nil => cases h
  | cons a l ih =>
    unfold bound at *
    simp only [List.foldr_cons]
    rcases List.mem_cons.mp h with rfl | h
    · omega
    · have := ih h; omega

theorem bound_le (labels : List Nat) (m : Nat) (h : ∀ x ∈ labels, x < m) : bound labels ≤ m := by
  induction labels with
  | nil => simp [bound]
  | cons a l ih =>
    have := ih fun x hx => h x (by simp [hx])
    have := h a (by simp)
    unfold bound at *
    simp only [List.foldr_cons]; omega

theorem bound_attained (labels : List Nat) (h : 0 < bound labels) : bound labels - 1 ∈ labels := by
  induction labels with
  | nil => simp [bound] at h
  | cons a l ih =>
    have e : bound (a :: l) = max (a + 1) (bound l) := rfl
    rw [e]
    by_cases hb : bound l ≤ a + 1
    · rw [max_eq_left hb]; simp
    · rw [max_eq_right (by omega)]
      exact List.mem_cons_of_mem _ (ih (by omega))

theorem npCounts_length (labels : List Nat) : (npCounts labels).length = bound labels := by
  simp [npCounts, bound]

theorem npCounts_getElem? (labels : List Nat) (i : Nat) (h : i < bound labels) :
    (npCounts labels)[i]? = some (labels.count i) := by
  unfold npCounts
  rw [List.getElem?_map, List.getElem?_range (by exact h)]; rfl

theorem npCounts_take_sum (labels : List Nat) (i : Nat) (h : i ≤ bound labels) :
    ((npCounts labels).take i).sum = labels.countP fun x => x < i := by
  unfold npCounts
  rw [← List.map_take, List.take_range, Nat.min_eq_left (by exact h)]
  exact sum_counts labels i

theorem reduce_isSome {β : Type} (op : β → β → β) (l : List β) (h : l ≠ []) : ∃ x, reduce op l = some x := by
  cases l with
  | nil => exact absurd rfl h
  | cons a l => exact ⟨_, rfl⟩

/-- The values with label `i`, in the order of the argsort. -/
def classOf {β : Type} (A : List Nat) (labels : List Nat) (values : List β) (i : Nat) : List β :=
  (A.filter fun k => labels.getD k 0 = i).filterMap (values[·]?)

theorem map_getD_range (labels : List Nat) : (List.range labels.length).map (fun k => labels.getD k 0) = labels := by
  apply List.ext_getElem
  · simp
  · intro i h1 h2
    simp [List.getD_eq_getElem?_getD, h2]

theorem argsort_keys {argsort : List Nat → List Nat} (hA : IsArgsort argsort) (labels : List Nat) :
    ((argsort labels).map fun k => labels.getD k 0).Perm labels := by
  have := (hA.perm labels).map fun k => labels.getD k 0
  rwa [map_getD_range] at this

theorem argsort_lt {argsort : List Nat → List Nat} (hA : IsArgsort argsort) (labels : List Nat) :
    ∀ k ∈ argsort labels, k < labels.length := by
  intro k hk
  simpa using (hA.perm labels).mem_iff.mp hk

theorem countP_argsort {argsort : List Nat → List Nat} (hA : IsArgsort argsort) (labels : List Nat) (p : Nat → Bool) :
    (argsort labels).countP (fun k => p (labels.getD k 0)) = labels.countP p := by
  have := (argsort_keys hA labels).countP_eq p
  rw [List.countP_map] at this
  exact this

theorem offsets_getD (labels : List Nat) (i n : Nat) (hn : n = labels.length) (h : i ≤ bound labels) :
    (offsets (npCounts labels)).getD i n = labels.countP fun x => x < i := by
  unfold offsets
  rw [List.getD_eq_getElem?_getD, List.getElem?_map]
  by_cases hi : i < bound labels
  · rw [List.getElem?_range (by rw [npCounts_length]; exact hi)]
    exact npCounts_take_sum labels i h
  · have hb : i = bound labels := by omega
    rw [List.getElem?_eq_none (by simp [npCounts_length]; omega)]
    simp only [Option.map_none, Option.getD_none]
    rw [hn, eq_comm, List.countP_eq_length]
    intro x hx; have := lt_bound labels x hx; simp; omega

theorem countP_lt_succ (labels : List Nat) (i : Nat) :
    (labels.countP fun x => x < i + 1) = (labels.countP fun x => x < i) + labels.count i := by
  rw [← sum_counts, ← sum_counts, List.range_succ]; simp

/-- The entry `i` of `op.reduceat(values[arg], offsets)`, for a label which occurs. -/
theorem reduceat1_eq {β : Type} {argsort : List Nat → List Nat} (hA : IsArgsort argsort) (op : β → β → β)
    (labels : List Nat) (values : List β) (hl : values.length = labels.length) (i : Nat) (hi : i < bound labels) :
    ∃ x, reduceat1 op ((argsort labels).filterMap (values[·]?)) ((offsets (npCounts labels)).getD i 0)
        ((offsets (npCounts labels)).getD (i + 1) ((argsort labels).filterMap (values[·]?)).length) = .ok x ∧
      (i ∈ labels → reduce op (classOf (argsort labels) labels values i) = some x) := by
  have hsome : ∀ k ∈ argsort labels, (values[k]?).isSome := by
    intro k hk; have := argsort_lt hA labels k hk
    rw [List.getElem?_eq_getElem (by omega)]; rfl
  have hlen : ((argsort labels).filterMap (values[·]?)).length = labels.length := by
    rw [filterMap_length_all _ _ hsome, (hA.perm labels).length_eq, List.length_range]
  have ho : (offsets (npCounts labels)).getD i 0 = labels.countP fun x => x < i := by
    rw [← offsets_getD labels i labels.length rfl (by omega)]
    have : i < (offsets (npCounts labels)).length := by simp [offsets, npCounts_length]; exact hi
    simp [List.getD_eq_getElem?_getD, this]
  rw [ho, offsets_getD labels (i + 1) _ hlen (by omega), countP_lt_succ]
  have hlt : (labels.countP fun x => x < i) < labels.length := by
    have hb := bound_attained labels (by omega)
    rcases Nat.lt_or_ge (labels.countP fun x => x < i) labels.length with h | h
    · exact h
    · have h' := List.countP_eq_length.mp (le_antisymm List.countP_le_length h) _ hb
      simp at h'; omega
  have hsub : labels.countP (fun x => decide (x < i)) + labels.count i - labels.countP (fun x => decide (x < i))
      = labels.count i := by omega
  have hwin : (((argsort labels).filterMap (values[·]?)).drop (labels.countP fun x => x < i)).take (labels.count i)
      = classOf (argsort labels) labels values i := by
    rw [filterMap_drop _ _ hsome, filterMap_take _ _ fun x hx => hsome x (List.mem_of_mem_drop hx)]
    have h := sorted_window (fun k => labels.getD k 0) (argsort labels) (hA.sorted labels) i
    have e1 := countP_argsort hA labels fun x => decide (x < i)
    have e2 := countP_argsort hA labels fun x => decide (x = i)
    rw [e1, e2] at h
    have e3 : labels.count i = labels.countP fun x => decide (x = i) := by
      exact List.countP_congr fun x _ => by simp
    rw [e3, h]
    rfl
  unfold reduceat1
  rw [List.getElem?_eq_getElem (by rw [hlen]; exact hlt), hsub, hwin]
  dsimp only
  by_cases hmem : i ∈ labels
  · have hpos : 0 < labels.count i := List.count_pos_iff.mpr hmem
    rw [if_pos (by omega)]
    have hne : classOf (argsort labels) labels values i ≠ [] := by
      rw [← hwin]
      intro hnil
      have := congrArg List.length hnil
      rw [List.length_take, List.length_drop, hlen, List.length_nil] at this
      omega
    obtain ⟨x, hx⟩ := reduce_isSome op _ hne
    exact ⟨x, by rw [hx], fun _ => hx⟩
  · have h0 : labels.count i = 0 := List.count_eq_zero.mpr hmem
    rw [if_neg (by omega)]
    exact ⟨_, rfl, fun h => absurd h hmem⟩

theorem mapM_ex {α β : Type} (f : α → Except Err β) (P : α → β → Prop) (l : List α) (h : ∀ x ∈ l, ∃ y, f x = .ok y ∧ P x y) :
    ∃ r, l.mapM f = .ok r ∧ r.length = l.length ∧ ∀ (i : Nat) (x : α), l[i]? = some x → ∃ y, r[i]? = some y ∧ P x y := by
  induction l with
  | nil => exact ⟨[], rfl, rfl, nofun⟩
  | cons a l ih =>
    obtain ⟨r, hr, hlen, hi⟩ := ih fun x hx => h x (by simp [hx])
    obtain ⟨y, hy, hp⟩ := h a (by simp)
    refine ⟨y :: r, by rw [List.mapM_cons, hy, hr]; rfl, by simp [hlen], ?_⟩
    intro i x hx
    cases i with
    | zero => simp only [List.getElem?_cons_zero, Option.some.injEq] at hx; subst hx; exact ⟨y, rfl, hp⟩
    | succ i => exact hi i x (by simpa using hx)

/-- An entry of the result: the reduction over the class, or the identity. -/
def entry {β : Type} (op : β → β → β) (identity : Option β) (c : List β) : Except Err β :=
  match reduce op c, identity with
  | some x, _ => .ok x
  | none, some e => .ok e
  | none, none => .error .typeError

theorem classOf_nil {β : Type} {argsort : List Nat → List Nat} (hA : IsArgsort argsort) (labels : List Nat) (values : List β)
    (i : Nat) (h : i ∉ labels) : classOf (argsort labels) labels values i = [] := by
  unfold classOf
  rw [List.filter_eq_nil_iff.mpr, List.filterMap_nil]
  intro k hk
  have := argsort_lt hA labels k hk
  simp only [decide_eq_true_eq]
  rintro rfl
  apply h
  rw [List.getD_eq_getElem?_getD, List.getElem?_eq_getElem this]
  exact List.getElem_mem this

theorem equivClass_core {β : Type} {argsort : List Nat → List Nat} (hA : IsArgsort argsort) (op : β → β → β)
    (identity : Option β) (minlength : Option Nat) (labels : List Nat) (values : List β)
    (hl : values.length = labels.length) (hm : bound labels ≤ minlength.getD (bound labels)) :
    equivClass argsort op true identity minlength labels values =
      (List.range (minlength.getD (bound labels))).mapM
        fun i => entry op identity (classOf (argsort labels) labels values i) := by
  unfold equivClass
  have ht : takeAt values (argsort labels) = .ok ((argsort labels).filterMap (values[·]?)) :=
    takeAt_ok _ _ fun k hk => by have := argsort_lt hA labels k hk; omega
  obtain ⟨red, hred, hlen, hent⟩ := mapM_ex
    (fun i => reduceat1 op ((argsort labels).filterMap (values[·]?)) ((offsets (npCounts labels)).getD i 0)
        ((offsets (npCounts labels)).getD (i + 1) ((argsort labels).filterMap (values[·]?)).length))
    (fun i x => i ∈ labels → reduce op (classOf (argsort labels) labels values i) = some x)
    (List.range (offsets (npCounts labels)).length) (by
      intro i hi
      have : i < bound labels := by simpa [offsets, npCounts_length] using hi
      exact reduceat1_eq hA op labels values hl i this)
  have hred' : reduceat op ((argsort labels).filterMap (values[·]?)) (offsets (npCounts labels)) = .ok red := hred
  simp only [if_true, ht, hred', npCounts_length, bind, Except.bind]
  rw [if_neg (by omega)]
  unfold fill
  apply mapM_congr
  intro i hi
  by_cases hmem : i ∈ labels
  · have hb := lt_bound labels i hmem
    obtain ⟨x, hx, hp⟩ := hent i i (by rw [List.getElem?_range]; simpa [offsets, npCounts_length] using hb)
    have hpos : 0 < labels.count i := List.count_pos_iff.mpr hmem
    obtain ⟨c, hc⟩ : ∃ c, labels.count i = c + 1 := ⟨labels.count i - 1, by omega⟩
    rw [npCounts_getElem? labels i hb, hx, hc]
    unfold entry
    rw [hp hmem]
  · have e : entry op identity (classOf (argsort labels) labels values i) =
        match identity with | some e => .ok e | none => .error .typeError := by
      unfold entry
      rw [classOf_nil hA labels values i hmem]
      cases identity <;> rfl
    rw [e]
    by_cases hb : i < bound labels
    · rw [npCounts_getElem? labels i hb, List.count_eq_zero.mpr hmem]
      cases identity <;> rfl
    · rw [List.getElem?_eq_none (by rw [npCounts_length]; omega)]
      cases identity <;> rfl

end NBK.Fof
