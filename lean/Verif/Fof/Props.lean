import Verif.Fof.Lemmas
import Mathlib.Data.List.Perm.Subperm
import Mathlib.Data.List.Nodup

/-!
# C38 `equiv_class` and C39 `replacesorted`
-/
namespace NBK.Fof
set_option linter.unusedSimpArgs false

/-- The values whose label is `i`, in their original order. -/
def members {β : Type} (labels : List Nat) (values : List β) (i : Nat) : List β :=
  ((List.range labels.length).filter fun k => labels[k]? = some i).filterMap (values[·]?)

/-- An argsort which keeps equal keys in order. -/
def Stable (argsort : List Nat → List Nat) : Prop :=
  ∀ l : List Nat, (argsort l).Pairwise fun i j => l.getD i 0 = l.getD j 0 → i < j

theorem members_eq {β : Type} (labels : List Nat) (values : List β) (i : Nat) :
    members labels values i = classOf (List.range labels.length) labels values i := by
  unfold members classOf
  congr 1
  apply List.filter_congr
  intro k hk
  have hk' : k < labels.length := by simpa using hk
  rw [decide_eq_decide, List.getD_eq_getElem?_getD, List.getElem?_eq_getElem hk']
  simp

theorem classOf_perm {β : Type} {argsort : List Nat → List Nat} (hA : IsArgsort argsort) (labels : List Nat) (values : List β)
    (i : Nat) : (classOf (argsort labels) labels values i).Perm (members labels values i) := by
  rw [members_eq]
  exact ((hA.perm labels).filter _).filterMap _

theorem members_ne_nil {β : Type} (labels : List Nat) (values : List β) (hl : values.length = labels.length) (i : Nat)
    (h : i ∈ labels) : members labels values i ≠ [] := by
  obtain ⟨k, hk, rfl⟩ := List.getElem_of_mem h
  have : values[k]'(by omega) ∈ members labels values labels[k] := by
    unfold members
    rw [List.mem_filterMap]
    exact ⟨k, by simp [hk], List.getElem?_eq_getElem _⟩
  exact List.ne_nil_of_mem this

theorem entry_ok {β : Type} (op : β → β → β) (e : β) (c : List β) : entry op (some e) c = .ok ((reduce op c).getD e) := by
  unfold entry; cases reduce op c <;> rfl

/-- C38: `equiv_class(labels, values, op, dense_labels=True, identity, minlength)`: entry `i` is the reduction over exactly the
values with label `i` (in the order of the argsort), and `identity` if there is none. -/
theorem equivClass_order_partial {β : Type} (argsort : List Nat → List Nat) (hA : IsArgsort argsort) (op : β → β → β) (e : β)
    (m : Nat) (labels : List Nat) (values : List β) (hl : values.length = labels.length) (hm : ∀ x ∈ labels, x < m) :
    ∃ r, equivClass argsort op true (some e) (some m) labels values = .ok r ∧ r.length = m ∧
      ∀ i < m, ∃ p : List β, p.Perm (members labels values i) ∧ r[i]? = some ((reduce op p).getD e) := by
  refine ⟨(List.range m).map fun i => (reduce op (classOf (argsort labels) labels values i)).getD e, ?_, ?_, ?_⟩
  · rw [equivClass_core hA op (some e) (some m) labels values hl (by exact bound_le labels m hm)]
    exact mapM_ok _ _ _ fun i _ => entry_ok op e _
  · simp
  · intro i hi
    refine ⟨_, classOf_perm hA labels values i, ?_⟩
    rw [List.getElem?_map, List.getElem?_range (by simpa using hi)]; rfl

theorem reduce_perm {β : Type} (op : β → β → β) (hc : ∀ a b, op a b = op b a) (ha : ∀ a b c, op (op a b) c = op a (op b c))
    {p q : List β} (h : p.Perm q) : reduce op p = reduce op q := by
  have hcm : ∀ a b c : β, op (op a b) c = op (op a c) b := by
    intro a b c; rw [ha, ha, hc b c]
  have swap : ∀ (l : List β) (x y : β), (y :: l).foldl op x = (x :: l).foldl op y := by
    intro l x y; simp only [List.foldl_cons]; rw [hc]
  induction h with
  | nil => rfl
  | @cons x l₁ l₂ hp ih =>
    unfold reduce
    dsimp only
    congr 1
    have : RightCommutative op := ⟨hcm⟩
    exact hp.foldl_eq x
  | swap x y l => unfold reduce; dsimp only; rw [swap]
  | trans _ _ ih1 ih2 => rw [ih1, ih2]

/-- C38 for commutative and associative operations (`fmin`, `fmax`, integer `add`): the order does not matter. -/
theorem equivClass_comm {β : Type} (argsort : List Nat → List Nat) (hA : IsArgsort argsort) (op : β → β → β)
    (hc : ∀ a b, op a b = op b a) (ha : ∀ a b c, op (op a b) c = op a (op b c)) (e : β)
    (m : Nat) (labels : List Nat) (values : List β) (hl : values.length = labels.length) (hm : ∀ x ∈ labels, x < m) :
    equivClass argsort op true (some e) (some m) labels values =
      .ok ((List.range m).map fun i => (reduce op (members labels values i)).getD e) := by
  rw [equivClass_core hA op (some e) (some m) labels values hl (by exact bound_le labels m hm)]
  refine mapM_ok _ _ _ fun i _ => ?_
  rw [entry_ok, reduce_perm op hc ha (classOf_perm hA labels values i)]

/-- C38 with a stable argsort, for every operation. -/
theorem equivClass_stable {β : Type} (argsort : List Nat → List Nat) (hA : IsArgsort argsort) (hs : Stable argsort)
    (op : β → β → β) (e : β)
    (m : Nat) (labels : List Nat) (values : List β) (hl : values.length = labels.length) (hm : ∀ x ∈ labels, x < m) :
    equivClass argsort op true (some e) (some m) labels values =
      .ok ((List.range m).map fun i => (reduce op (members labels values i)).getD e) := by
  rw [equivClass_core hA op (some e) (some m) labels values hl (by exact bound_le labels m hm)]
  refine mapM_ok _ _ _ fun i _ => ?_
  rw [entry_ok, members_eq]
  unfold classOf
  have : (argsort labels).filter (fun k => decide (labels.getD k 0 = i)) =
      (List.range labels.length).filter fun k => decide (labels.getD k 0 = i) := by
    refine List.Perm.eq_of_pairwise (le := (· < ·)) (fun a b _ _ h1 h2 => absurd h1 (Nat.lt_asymm h2)) ?_ ?_
      ((hA.perm labels).filter _)
    · refine List.Pairwise.imp_of_mem ?_ ((hs labels).filter fun k => decide (labels.getD k 0 = i))
      intro a b ha hb h
      apply h
      have h1 := (List.mem_filter.mp ha).2
      have h2 := (List.mem_filter.mp hb).2
      simp only [decide_eq_true_eq] at h1 h2
      rw [h1, h2]
    · exact List.pairwise_lt_range.filter _
  rw [this]

/-- Without `minlength` and `identity` (as in `_fof_local`, but with dense labels): the result reaches up to the largest label, and
there must be no gap. -/
theorem equivClass_default {β : Type} (argsort : List Nat → List Nat) (hA : IsArgsort argsort) (op : β → β → β)
    (hc : ∀ a b, op a b = op b a) (ha : ∀ a b c, op (op a b) c = op a (op b c))
    (m : Nat) (labels : List Nat) (values : List β) (hl : values.length = labels.length)
    (hm : ∀ x, x ∈ labels ↔ x < m) :
    ∃ r, equivClass argsort op true none none labels values = .ok r ∧ r.length = m ∧
      ∀ i < m, r[i]? = reduce op (members labels values i) := by
  have hb : bound labels = m := by
    apply le_antisymm (bound_le labels m fun x hx => (hm x).mp hx)
    rcases Nat.eq_zero_or_pos m with h | h
    · omega
    · have := lt_bound labels (m - 1) ((hm _).mpr (by omega)); omega
  have hcore := equivClass_core hA op none none labels values hl (le_refl _)
  simp only [Option.getD_none, hb] at hcore
  rw [hcore]
  obtain ⟨r, h1, h2, h3⟩ := mapM_ex (fun i => entry op none (classOf (argsort labels) labels values i))
    (fun i x => reduce op (members labels values i) = some x) (List.range m) (by
      intro i hi
      have hi' : i ∈ labels := (hm i).mpr (by simpa using hi)
      obtain ⟨x, hx⟩ := reduce_isSome op _ (members_ne_nil labels values hl i hi')
      refine ⟨x, ?_, hx⟩
      unfold entry
      rw [reduce_perm op hc ha (classOf_perm hA labels values i), hx])
  refine ⟨r, h1, by simpa using h2, fun i hi => ?_⟩
  obtain ⟨x, hx, hx'⟩ := h3 i i (by rw [List.getElem?_range (by simpa using hi)])
  rw [hx, hx']

/-- `uniqueInverse` gives the position in the sorted list of distinct labels. -/
theorem uniqueInverse_spec (labels U : List Nat) (hU : U.Pairwise (· < ·)) (hmem : ∀ x, x ∈ U ↔ x ∈ labels)
    (j k : Nat) (u : Nat) (hk : U[k]? = some u) :
    (uniqueInverse labels)[j]? = some k ↔ labels[j]? = some u := by
  have hcount : ∀ (k : Nat) (u : Nat), U[k]? = some u → (labels.dedup.filter (· < u)).length = k := by
    intro k u hk
    have hp : labels.dedup.Perm U := by
      rw [List.perm_ext_iff_of_nodup (List.nodup_dedup _) (hU.imp fun h => Nat.ne_of_lt h)]
      intro a; rw [List.mem_dedup, hmem]
    rw [((hp.filter _).length_eq)]
    obtain ⟨hkl, hu⟩ := List.getElem?_eq_some_iff.mp hk
    have hsplit : U = U.take k ++ U.drop k := (List.take_append_drop k U).symm
    have hp' := List.pairwise_iff_getElem.mp hU
    conv_lhs => rw [hsplit]
    subst hu
    rw [List.filter_append, List.filter_eq_self.mpr, List.filter_eq_nil_iff.mpr]
    · simp; omega
    · intro a ha
      obtain ⟨i, hi, rfl⟩ := List.getElem_of_mem ha
      rw [List.getElem_drop, decide_eq_true_eq, Nat.not_lt]
      rcases Nat.eq_zero_or_pos i with h | h
      · subst h; simp
      · exact Nat.le_of_lt (hp' k (k + i) hkl (by simp at hi; omega) (by omega))
    · intro a ha
      obtain ⟨i, hi, rfl⟩ := List.getElem_of_mem ha
      rw [List.getElem_take, decide_eq_true_eq]
      exact hp' i k (by simp at hi; omega) hkl (by simp at hi; omega)
  unfold uniqueInverse
  rw [List.getElem?_map]
  cases hj : labels[j]? with
  | none => simp
  | some x =>
    have hx : x ∈ U := (hmem x).mpr (List.mem_of_getElem? hj)
    obtain ⟨k', hk', rfl⟩ := List.getElem_of_mem hx
    have h' := hcount k' U[k'] (List.getElem?_eq_getElem hk')
    simp only [Option.map_some, Option.some.injEq, h']
    constructor
    · rintro rfl; rw [List.getElem?_eq_getElem hk'] at hk; exact Option.some.inj hk
    · rintro rfl
      rw [← h', hcount k _ hk]

/-- C38 with the default `dense_labels=False` (as in `_fof_local`): one entry for each distinct label, in increasing order of the
labels. -/
theorem equivClass_sparse {β : Type} (argsort : List Nat → List Nat) (hA : IsArgsort argsort) (op : β → β → β)
    (hc : ∀ a b, op a b = op b a) (ha : ∀ a b c, op (op a b) c = op a (op b c))
    (labels U : List Nat) (values : List β) (hl : values.length = labels.length)
    (hU : U.Pairwise (· < ·)) (hmem : ∀ x, x ∈ U ↔ x ∈ labels) :
    ∃ r, equivClass argsort op false none none labels values = .ok r ∧ r.length = U.length ∧
      ∀ (k : Nat) (u : Nat), U[k]? = some u → r[k]? = reduce op (members labels values u) := by
  have hlen : (uniqueInverse labels).length = labels.length := by simp [uniqueInverse]
  have e : equivClass argsort op false none none labels values =
      equivClass argsort op true none none (uniqueInverse labels) values := rfl
  rw [e]
  obtain ⟨r, h1, h2, h3⟩ := equivClass_default argsort hA op hc ha U.length (uniqueInverse labels) values (by omega) (by
    intro k
    constructor
    · intro hk
      obtain ⟨j, hj, hjk⟩ := List.getElem_of_mem hk
      have hjl : j < labels.length := by omega
      obtain ⟨k', hk', e'⟩ := List.getElem_of_mem ((hmem labels[j]).mpr (List.getElem_mem hjl))
      have := (uniqueInverse_spec labels U hU hmem j k' labels[j] (by rw [List.getElem?_eq_getElem hk', e'])).mpr
        (List.getElem?_eq_getElem hjl)
      rw [List.getElem?_eq_getElem hj, hjk] at this
      have := Option.some.inj this
      omega
    · intro hk
      obtain ⟨j, hj, e'⟩ := List.getElem_of_mem ((hmem U[k]).mp (List.getElem_mem hk))
      have := (uniqueInverse_spec labels U hU hmem j k U[k] (List.getElem?_eq_getElem hk)).mpr
        (by rw [List.getElem?_eq_getElem hj, e'])
      exact List.mem_of_getElem? this)
  refine ⟨r, h1, h2, fun k u hk => ?_⟩
  rw [h3 k (by obtain ⟨h, _⟩ := List.getElem?_eq_some_iff.mp hk; exact h)]
  congr 1
  unfold members
  rw [hlen]
  congr 1
  apply List.filter_congr
  intro j _
  rw [decide_eq_decide]
  exact uniqueInverse_spec labels U hU hmem j k u hk

/-- A `minlength` below the number of labels fails, unless there is one label only. -/
theorem equivClass_too_short {β : Type} (argsort : List Nat → List Nat) (hA : IsArgsort argsort) (op : β → β → β)
    (identity : Option β) (m : Nat) (labels : List Nat) (values : List β) (hl : values.length = labels.length)
    (x : Nat) (hx : x ∈ labels) (hxm : m ≤ x) (h0 : x ≠ 0) :
    equivClass argsort op true identity (some m) labels values = .error .valueError := by
  unfold equivClass
  have ht : takeAt values (argsort labels) = .ok ((argsort labels).filterMap (values[·]?)) :=
    takeAt_ok _ _ fun k hk => by have := argsort_lt hA labels k hk; omega
  obtain ⟨red, hred, -, -⟩ := mapM_ex
    (fun i => reduceat1 op ((argsort labels).filterMap (values[·]?)) ((offsets (npCounts labels)).getD i 0)
        ((offsets (npCounts labels)).getD (i + 1) ((argsort labels).filterMap (values[·]?)).length))
    (fun _ _ => True)
    (List.range (offsets (npCounts labels)).length) (by
      intro i hi
      have : i < bound labels := by simpa [offsets, npCounts_length] using hi
      obtain ⟨x, hx, -⟩ := reduceat1_eq hA op labels values hl i this
      exact ⟨x, hx, trivial⟩)
  have hred' : reduceat op ((argsort labels).filterMap (values[·]?)) (offsets (npCounts labels)) = .ok red := hred
  have := lt_bound labels x hx
  simp only [if_true, ht, hred', npCounts_length, bind, Except.bind, Option.getD_some]
  rw [if_pos (by omega)]

/-- An insertion sort of positions: an argsort exists. -/
def stableArgsort (l : List Nat) : List Nat :=
  (List.range l.length).mergeSort fun i j => l.getD i 0 ≤ l.getD j 0

theorem stableArgsort_isArgsort : IsArgsort stableArgsort where
  perm l := List.mergeSort_perm _ _
  sorted l := by
    have := List.pairwise_mergeSort (le := fun i j => decide (l.getD i 0 ≤ l.getD j 0))
      (fun a b c h1 h2 => by simp only [decide_eq_true_eq] at *; omega)
      (fun a b => by simp only [Bool.or_eq_true, decide_eq_true_eq]; omega) (List.range l.length)
    exact this.imp fun h => by simpa using h

/-- The order of the values within a label is not kept in general: with an argsort which swaps equal keys, `subtract` gives `2 - 1`
instead of `1 - 2`. -/
theorem equivClass_order_lost : ∃ argsort, IsArgsort argsort ∧
    equivClass argsort (fun a b : Int => a - b) true (some 0) none [0, 0] [1, 2] = .ok [1] ∧
    (reduce (fun a b : Int => a - b) (members [0, 0] [1, 2] 0)).getD 0 = -1 := by
  refine ⟨fun l => if l = [0, 0] then [1, 0] else stableArgsort l, ⟨fun l => ?_, fun l => ?_⟩, by decide, by decide⟩
  · split
    · rename_i h; subst h; decide
    · exact stableArgsort_isArgsort.perm l
  · split
    · rename_i h; subst h; decide
    · exact stableArgsort_isArgsort.sorted l

example : ∃ r, equivClass stableArgsort min true (some 9) (some 4) [2, 0, 2] [5, 6, 3] = .ok r ∧ r = [6, 9, 3, 9] := by
  refine ⟨_, equivClass_comm stableArgsort stableArgsort_isArgsort min (fun a b => Nat.min_comm a b)
    (fun a b c => Nat.min_assoc a b c) 9 4 [2, 0, 2] [5, 6, 3] rfl (by decide), by decide⟩

example : ∃ r, equivClass stableArgsort min false none none [7, 3, 7] [5, 6, 4] = .ok r ∧ r.length = 2 ∧
    r[0]? = some 6 ∧ r[1]? = some 4 := by
  obtain ⟨r, h1, h2, h3⟩ := equivClass_sparse stableArgsort stableArgsort_isArgsort min (fun a b => Nat.min_comm a b)
    (fun a b c => Nat.min_assoc a b c) [7, 3, 7] [3, 7] [5, 6, 4] rfl (by decide) (by intro x; simp; omega)
  exact ⟨r, h1, h2, by rw [h3 0 3 rfl]; rfl, by rw [h3 1 7 rfl]; rfl⟩

/-! ### C39 -/

theorem searchLeft_first (s : List Nat) (x : Nat) (hs : s.Pairwise (· ≤ ·)) (hx : x ∈ s) :
    s[searchLeft s x]? = some x ∧ ∀ j < searchLeft s x, s[j]? ≠ some x := by
  induction s with
  | nil => cases hx
  | cons a s ih =>
    obtain ⟨ha, hs'⟩ := List.pairwise_cons.mp hs
    unfold searchLeft
    by_cases h : a < x
    · have hx' : x ∈ s := by
        rcases List.mem_cons.mp hx with rfl | h'
        · omega
        · exact h'
      obtain ⟨h1, h2⟩ := ih hs' hx'
      unfold searchLeft at h1 h2
      rw [List.takeWhile_cons, if_pos (by simpa using h), List.length_cons]
      refine ⟨by simpa using h1, fun j hj => ?_⟩
      cases j with
      | zero => simp; omega
      | succ j => simpa using h2 j (by omega)
    · rw [List.takeWhile_cons, if_neg (by simpa using h)]
      have : a = x := by
        rcases List.mem_cons.mp hx with rfl | h'
        · rfl
        · have := ha x h'; omega
      simp [this]

/-- C39: with `sorted` ascending, every entry of `arr` which occurs in `sorted` is replaced by the entry of `b` at its (first)
position there; the others stay. -/
theorem replacesorted_spec (arr s b : List Nat) (hs : s.Pairwise (· ≤ ·)) (hb : b.length = s.length) :
    ∃ r, replacesorted arr s b = .ok r ∧ r.length = arr.length ∧
      ∀ (i x : Nat), arr[i]? = some x →
        (x ∉ s → r[i]? = some x) ∧
        (∀ k : Nat, s[k]? = some x → (∀ j < k, s[j]? ≠ some x) → r[i]? = b[k]?) := by
  unfold replacesorted
  by_cases h0 : s = []
  · subst h0
    rw [if_pos rfl]
    exact ⟨arr, rfl, rfl, fun i x hx => ⟨fun _ => hx, fun k hk => by simp at hk⟩⟩
  · rw [if_neg h0]
    have hpos : 0 < s.length := List.length_pos_iff.mpr h0
    obtain ⟨r, h1, h2, h3⟩ := mapM_ex (fun x =>
        let ind := min (searchLeft s x) (s.length - 1)
        if s[ind]? = some x then
          match b[ind]? with
          | some y => (.ok y : Except Err Nat)
          | none => .error .indexError
        else .ok x)
      (fun x y => (x ∉ s → y = x) ∧ ∀ k : Nat, s[k]? = some x → (∀ j < k, s[j]? ≠ some x) → b[k]? = some y) arr (by
        intro x _
        dsimp only
        by_cases hx : x ∈ s
        · obtain ⟨hf, hmin⟩ := searchLeft_first s x hs hx
          obtain ⟨hlt, -⟩ := List.getElem?_eq_some_iff.mp hf
          rw [Nat.min_eq_left (by omega), if_pos hf, List.getElem?_eq_getElem (by omega)]
          refine ⟨_, rfl, fun h => absurd hx h, fun k hk hkm => ?_⟩
          have : k = searchLeft s x := by
            rcases Nat.lt_trichotomy k (searchLeft s x) with h | h | h
            · exact absurd hk (hmin k h)
            · exact h
            · exact absurd hf (hkm _ h)
          subst this
          exact List.getElem?_eq_getElem (by omega)
        · rw [if_neg fun h => hx (List.mem_of_getElem? h)]
          exact ⟨x, rfl, fun _ => rfl, fun k hk => absurd (List.mem_of_getElem? hk) hx⟩)
    refine ⟨r, h1, h2, fun i x hx => ?_⟩
    obtain ⟨y, hy, ha, hb'⟩ := h3 i x hx
    exact ⟨fun h => by rw [hy, ha h], fun k hk hm => by rw [hy, hb' k hk hm]⟩

example : ∃ r, replacesorted [4, 1, 7] [1, 7] [10, 20] = .ok r ∧ r[0]? = some 4 ∧ r[2]? = some 20 := by
  obtain ⟨r, h, -, h3⟩ := replacesorted_spec [4, 1, 7] [1, 7] [10, 20] (by decide) rfl
  exact ⟨r, h, (h3 0 4 rfl).1 (by decide), (h3 2 7 rfl).2 1 rfl (by decide)⟩

end NBK.Fof
