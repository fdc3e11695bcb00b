import Verif.RngObj.ProgProps
import Mathlib.Data.List.GetD
import Mathlib.Tactic.Linarith

/-!
# numpy's choice with weights without replacement (used in C131): what it draws
-/
set_option linter.unusedSimpArgs false
namespace NBK.RngObj
open NBK

/-- The number of first indices with a property that holds for all smaller ones. -/
theorem filter_down (n : Nat) (P : Nat → Prop) [DecidablePred P] (hd : ∀ i j, i ≤ j → P j → P i) :
    ∀ i, i < n → (P i ↔ i < ((List.range n).filter fun i => decide (P i)).length) := by
  induction n with
  | zero => intro i hi; omega
  | succ n ih =>
    intro i hi
    rw [List.range_succ, List.filter_append, List.length_append]
    have hle : ((List.range n).filter fun i => decide (P i)).length ≤ n := Nat.le_trans (List.length_filter_le _ _) (by rw [List.length_range])
    by_cases hn : P n
    · have hall : ((List.range n).filter fun i => decide (P i)) = List.range n := by
        rw [List.filter_eq_self]
        intro j hj
        rw [decide_eq_true_eq]
        exact hd j n (List.mem_range.mp hj).le hn
      rw [hall]
      simp only [List.filter_cons, hn, decide_true, if_true, List.filter_nil, List.length_cons, List.length_nil, List.length_range]
      exact ⟨fun _ => hi, fun _ => hd i n (by omega) hn⟩
    · simp only [List.filter_cons, hn, decide_false, Bool.false_eq_true, if_false, List.filter_nil, List.length_nil, Nat.add_zero]
      rcases Nat.lt_succ_iff_lt_or_eq.mp hi with h | rfl
      · exact ih i h
      · exact ⟨fun h => absurd h hn, fun h => absurd h (by omega)⟩

theorem take_sum_mono (w : List Nat) (i j : Nat) (h : i ≤ j) : (w.take i).sum ≤ (w.take j).sum := by
  obtain ⟨k, rfl⟩ := Nat.exists_eq_add_of_le h
  rw [List.take_add, List.sum_append]
  omega

/-- C131: the index drawn by a number of `[0, 1)` is that whose share of the total weight the number is in; its weight is not zero. -/
theorem searchRight_spec (w : List Nat) (x : Nat × Nat) (hs : 0 < w.sum) (hx : x.1 < x.2) :
    searchRight w x < w.length ∧ (w.take (searchRight w x)).sum * x.2 ≤ x.1 * w.sum ∧ x.1 * w.sum < (w.take (searchRight w x + 1)).sum * x.2 ∧
    0 < w.getD (searchRight w x) 0 := by
  have key := filter_down w.length (fun i => (w.take (i + 1)).sum * x.2 ≤ x.1 * w.sum) (by
    intro i j hij h
    exact Nat.le_trans (Nat.mul_le_mul_right _ (take_sum_mono w (i + 1) (j + 1) (by omega))) h)
  change ∀ i, i < w.length → (_ ↔ i < searchRight w x) at key
  generalize searchRight w x = k at key ⊢
  have hpos : 0 < w.length := by
    cases w with
    | nil => simp at hs
    | cons a l => simp
  have hk : k < w.length := by
    by_contra hc
    have := (key (w.length - 1) (by omega)).mpr (by omega)
    rw [show w.length - 1 + 1 = w.length by omega, List.take_length] at this
    have h2 : x.1 * w.sum < x.2 * w.sum := Nat.mul_lt_mul_of_pos_right hx hs
    rw [Nat.mul_comm w.sum] at this
    omega
  have h1 : (w.take k).sum * x.2 ≤ x.1 * w.sum := by
    cases k with
    | zero => simp
    | succ k => exact (key k (by omega)).mpr (by omega)
  have h2 : x.1 * w.sum < (w.take (k + 1)).sum * x.2 := by
    exact Nat.lt_of_not_le fun h => Nat.lt_irrefl _ ((key k hk).mp h)
  refine ⟨hk, h1, h2, ?_⟩
  rw [List.take_add_one, List.sum_append, List.getElem?_eq_getElem hk] at h2
  rw [List.getD_eq_getElem?_getD, List.getElem?_eq_getElem hk]
  simp only [Option.toList_some, List.sum_cons, List.sum_nil, Nat.add_zero, Option.getD_some] at h2 ⊢
  by_contra hc
  have : w[k] = 0 := by omega
  rw [this] at h2
  simp only [Nat.add_zero] at h2
  omega

theorem firsts_spec (l seen : List Nat) : (firsts seen l).Nodup ∧ (∀ x ∈ firsts seen l, x ∉ seen ∧ x ∈ l) ∧ (firsts seen l).length ≤ l.length ∧
    (l ≠ [] → seen = [] → firsts seen l ≠ []) := by
  induction l generalizing seen with
  | nil => simp [firsts]
  | cons y l ih =>
    unfold firsts
    split_ifs with h
    · obtain ⟨i1, i2, i3, i4⟩ := ih seen
      refine ⟨i1, fun x hx => ⟨(i2 x hx).1, List.mem_cons_of_mem _ (i2 x hx).2⟩, by simp only [List.length_cons]; omega, ?_⟩
      intro _ hs
      subst hs
      simp at h
    · obtain ⟨i1, i2, i3, i4⟩ := ih (y :: seen)
      refine ⟨List.nodup_cons.mpr ⟨fun hc => absurd (List.mem_cons_self) (i2 y hc).1, i1⟩, ?_, by simp only [List.length_cons]; omega, by simp⟩
      intro x hx
      rcases List.mem_cons.mp hx with rfl | hx
      · exact ⟨h, List.mem_cons_self⟩
      · exact ⟨fun hc => (i2 x hx).1 (List.mem_cons_of_mem _ hc), List.mem_cons_of_mem _ (i2 x hx).2⟩

theorem le_sum (l : List Nat) (x : Nat) (h : x ∈ l) : x ≤ l.sum := by
  induction l with
  | nil => simp at h
  | cons y l ih =>
    rw [List.sum_cons]
    rcases List.mem_cons.mp h with rfl | h
    · omega
    · have := ih h; omega

/-- The indices with a weight. -/
def support (w : List Nat) : List Nat := (List.range w.length).filter fun i => 0 < w.getD i 0

theorem mem_support (w : List Nat) (i : Nat) : i ∈ support w ↔ 0 < w.getD i 0 := by
  unfold support
  rw [List.mem_filter, List.mem_range, decide_eq_true_eq]
  constructor
  · exact fun h => h.2
  · intro h
    refine ⟨?_, h⟩
    by_contra hc
    rw [List.getD_eq_default _ _ (by omega)] at h
    omega

/-- C131: numpy's draw with weights and without replacement: no index twice, none without weight, never more than asked for, and with `fuel` of at least the size exactly
as many. -/
theorem weighted_spec (xs : Nat → Nat × Nat) (hx : ∀ i, (xs i).1 < (xs i).2) (w : List Nat) (size : Nat) (hw : size ≤ (support w).length) (fuel used : Nat)
    (found : List Nat) (hn : found.Nodup) (hp : ∀ i ∈ found, 0 < w.getD i 0) (hl : found.length ≤ size) :
    let r := weighted xs w size fuel used found
    r.Nodup ∧ (∀ i ∈ r, 0 < w.getD i 0) ∧ r.length ≤ size ∧ found <+: r ∧ (size ≤ fuel + found.length → r.length = size) := by
  induction fuel generalizing used found with
  | zero =>
    refine ⟨hn, hp, hl, List.prefix_refl _, fun h => ?_⟩
    show found.length = size
    omega
  | succ fuel ih =>
    unfold weighted
    dsimp only
    split_ifs with hs
    · exact ⟨hn, hp, hl, List.prefix_refl _, fun _ => by omega⟩
    · set w' := w.mapIdx fun i v => if i ∈ found then 0 else v with hw'
      have hget : ∀ i, w'.getD i 0 = if i ∈ found then 0 else w.getD i 0 := by
        intro i
        rw [hw', List.getD_eq_getElem?_getD, List.getD_eq_getElem?_getD, List.getElem?_mapIdx]
        cases w[i]? with
        | none => simp
        | some v => simp
      have hsum : 0 < w'.sum := by
        by_contra hc
        have hz : w'.sum = 0 := by omega
        have hsub : support w ⊆ found := by
          intro i hi
          rw [mem_support] at hi
          by_contra hf
          have hg := hget i
          rw [if_neg hf] at hg
          have hlt : i < w'.length := by
            by_contra hge
            rw [List.getD_eq_default _ _ (by omega)] at hg
            omega
          have := le_sum w' (w'.getD i 0) (by
            rw [List.getD_eq_getElem _ _ hlt]
            exact List.getElem_mem hlt)
          omega
        have hsn : (support w).Nodup := List.nodup_range.filter _
        have := (List.subperm_of_subset hsn hsub).length_le
        omega
      set new := firsts [] ((List.range (size - found.length)).map fun i => searchRight w' (xs (used + i))) with hnew
      obtain ⟨f1, f2, f3, f4⟩ := firsts_spec ((List.range (size - found.length)).map fun i => searchRight w' (xs (used + i))) []
      rw [← hnew] at f1 f2 f3 f4
      have hmem : ∀ i ∈ new, i ∉ found ∧ 0 < w.getD i 0 := by
        intro i hi
        obtain ⟨t, _, rfl⟩ := List.mem_map.mp (f2 i hi).2
        have h4 := (searchRight_spec w' (xs (used + t)) hsum (hx _)).2.2.2
        rw [hget] at h4
        split_ifs at h4 with hin
        · omega
        · exact ⟨hin, h4⟩
      have hpos : 0 < new.length := by
        apply List.length_pos_iff.mpr
        apply f4
        · intro h
          have := congrArg List.length h
          simp at this
          omega
        · rfl
      rw [List.length_map, List.length_range] at f3
      obtain ⟨r1, r2, r3, r4, r5⟩ := ih (used + (size - found.length)) (found ++ new)
        (List.nodup_append.mpr ⟨hn, f1, fun a ha b hb hab => (hmem b hb).1 (hab ▸ ha)⟩)
        (fun i hi => (List.mem_append.mp hi).elim (hp i) fun h => (hmem i h).2)
        (by rw [List.length_append]; omega)
      refine ⟨r1, r2, r3, (List.prefix_append _ _).trans r4, fun h => r5 ?_⟩
      rw [List.length_append]
      omega

/-- C131: a draw of two of three indices, one of them without weight. -/
theorem weighted_case : weighted (fun i => (i % 2, 2)) [0, 1, 3] 2 2 0 [] = [1, 2] ∧ support [0, 1, 3] = [1, 2] ∧ ∀ i : Nat, i % 2 < 2 :=
  ⟨by decide +kernel, by decide +kernel, fun i => Nat.mod_lt _ (by omega)⟩

end NBK.RngObj
