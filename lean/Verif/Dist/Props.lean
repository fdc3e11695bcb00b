import Verif.Dist.BinLemmas
import Mathlib.Data.Nat.Find
import Mathlib.Data.Finset.Max

/-!
# C06, C07, C08, C09: distributed arrays
-/
set_option linter.unusedSimpArgs false
namespace NBK.Dist

/-! ## C06: even splitting -/

/-- C06: the ranges `[n*r//P, n*(r+1)//P)`, `r < P`, tile `[0,n)`: the first starts at 0, each starts where the
previous ends, the last ends at `n`, and lengths differ by at most one. -/
theorem evenSplit_tiles (n P : Nat) (hP : 0 < P) :
    evenStart n P 0 = 0 ∧ evenStart n P P = n
    ∧ (∀ r, evenStart n P r ≤ evenStart n P (r + 1))
    ∧ (∀ i, i < n → ∃ r, r < P ∧ (evenStart n P r ≤ i ∧ i < evenStart n P (r + 1)) ∧
        ∀ q, q < P → evenStart n P q ≤ i ∧ i < evenStart n P (q + 1) → q = r)
    ∧ (∀ r q, evenStart n P (r + 1) - evenStart n P r ≤ evenStart n P (q + 1) - evenStart n P q + 1) := by
  have hmono : ∀ r q, r ≤ q → evenStart n P r ≤ evenStart n P q := by
    intro r q h
    exact Nat.div_le_div_right (Nat.mul_le_mul_left n h)
  have hend : evenStart n P P = n := by simp [evenStart, Nat.mul_div_cancel _ hP]
  refine ⟨by simp [evenStart], hend, fun r => hmono _ _ (by omega), ?_, ?_⟩
  · intro i hi
    have hex : ∃ q, i < evenStart n P (q + 1) := ⟨P, lt_of_lt_of_le (by rw [hend]; exact hi) (hmono P (P+1) (by omega))⟩
    classical
    refine ⟨Nat.find hex, ?_, ⟨?_, Nat.find_spec hex⟩, ?_⟩
    · by_contra hcon
      have : P - 1 < Nat.find hex := by omega
      apply Nat.find_min hex this
      rw [Nat.sub_add_cancel hP, hend]; exact hi
    · cases hf : Nat.find hex with
      | zero => simp [evenStart]
      | succ k =>
        have := Nat.find_min hex (m := k) (by omega)
        omega
    · rintro q hq ⟨h1, h2⟩
      apply le_antisymm
      · by_contra hcon
        have hlt : Nat.find hex + 1 ≤ q := by omega
        have := hmono _ _ hlt
        have := Nat.find_spec hex
        omega
      · exact Nat.find_min' hex h2
  · have key : ∀ r, n / P ≤ evenStart n P (r + 1) - evenStart n P r
        ∧ evenStart n P (r + 1) - evenStart n P r ≤ n / P + 1 := by
      intro r
      have e : n * (r + 1) = n * r + n := Nat.mul_succ n r
      have h1 : evenStart n P r + n / P ≤ evenStart n P (r + 1) := by
        unfold evenStart
        rw [e]
        rw [Nat.add_div hP]; omega
      have h2 : evenStart n P (r + 1) ≤ evenStart n P r + n / P + 1 := by
        unfold evenStart
        rw [e, Nat.add_div hP]
        split <;> omega
      generalize n / P = g at *
      omega
    intro r q
    have := key r; have := key q
    omega

/-- C06 for `cempty`: the collective creation never fails the shape check, and the local lengths are the lengths
of these ranges (they add up to `n`). -/
theorem cempty_ok (n P : Nat) (hP : 0 < P) :
    ∃ ls, cempty n P = some ls ∧ ls.length = P ∧ ls.sum = n ∧
      ∀ (r : Nat) (x : Int), ls[r]? = some x → x = (evenStart n P (r + 1) : Int) - evenStart n P r ∧ 0 ≤ x := by
  have hsum : ∀ k, ((List.range k).map (llen n P)).sum = ((n * k / P : Nat) : Int) := by
    intro k
    induction k with
    | zero => simp
    | succ k ih => rw [List.range_succ, List.map_append, List.sum_append, ih]; simp [llen]
  refine ⟨(List.range P).map (llen n P), ?_, by simp, ?_, ?_⟩
  · unfold cempty
    simp only []
    rw [if_pos]
    rw [hsum, Nat.mul_div_cancel _ hP]
  · rw [hsum, Nat.mul_div_cancel _ hP]
  · intro r x hx
    rw [List.getElem?_map, Option.map_eq_some_iff] at hx
    obtain ⟨q, hq, rfl⟩ := hx
    obtain ⟨_, rfl⟩ := List.getElem?_eq_some_iff.mp hq
    simp only [List.getElem_range]
    refine ⟨rfl, ?_⟩
    have := (evenSplit_tiles n P hP).2.2.1 r
    unfold llen; unfold evenStart at this
    omega

/-- Non-vacuity: 7 rows on 3 ranks. -/
example : cempty 7 3 = some [2, 2, 3] := by decide

/-! ## C07: unique labels -/

/-- C07: for a globally sorted array, the label of every element is the number of distinct smaller values in the
whole array, whatever the distribution (empty ranks and values spanning ranks included). -/
theorem uniqueLabels_rank {α : Type} [LinearOrder α] (D : List (List α))
    (hs : D.flatten.Pairwise (· ≤ ·)) :
    uniqueLabels D = D.map (List.map fun x => (D.flatten.toFinset.filter (· < x)).card) :=
  uniqueLabels_eq D hs

/-- C07, consequences: the labels have the shape of the array; equal values (and only these) get equal labels;
smaller values get smaller labels; the labels used are exactly `0, ..., k-1`, `k` the number of distinct values. -/
theorem uniqueLabels_dense {α : Type} [LinearOrder α] (D : List (List α))
    (hs : D.flatten.Pairwise (· ≤ ·)) :
    ∃ lab : α → Nat, uniqueLabels D = D.map (List.map lab)
      ∧ (∀ x ∈ D.flatten, ∀ y ∈ D.flatten, (lab x = lab y ↔ x = y) ∧ (lab x < lab y ↔ x < y))
      ∧ (∀ k, (∃ x ∈ D.flatten, lab x = k) ↔ k < D.flatten.toFinset.card) := by
  refine ⟨_, uniqueLabels_eq D hs, ?_, ?_⟩
  · have hlt : ∀ x ∈ D.flatten, ∀ y ∈ D.flatten, x < y →
        (D.flatten.toFinset.filter (· < x)).card < (D.flatten.toFinset.filter (· < y)).card := by
      intro x hx y hy hxy
      apply Finset.card_lt_card
      rw [Finset.ssubset_iff_of_subset]
      · exact ⟨x, by simp [List.mem_flatten.mp hx, hxy], by simp⟩
      · intro z hz
        simp only [Finset.mem_filter] at hz ⊢
        exact ⟨hz.1, lt_trans hz.2 hxy⟩
    intro x hx y hy
    rcases lt_trichotomy x y with h | h | h
    · have := hlt x hx y hy h
      exact ⟨⟨fun e => absurd e (by omega), fun e => absurd e h.ne⟩, ⟨fun _ => h, fun _ => this⟩⟩
    · subst h; simp
    · have := hlt y hy x hx h
      exact ⟨⟨fun e => absurd e (by omega), fun e => absurd e h.ne'⟩,
        ⟨fun e => absurd e (by omega), fun e => absurd e (not_lt.mpr h.le)⟩⟩
  · have gen : ∀ (s : Finset α) (k : Nat), (∃ x ∈ s, (s.filter (· < x)).card = k) ↔ k < s.card := by
      intro s
      induction s using Finset.induction_on_max with
      | empty => simp
      | insert a s ha ih =>
        have hnot : a ∉ s := fun h => lt_irrefl a (ha a h)
        intro k
        have e1 : ∀ x ∈ s, (insert a s).filter (· < x) = s.filter (· < x) := by
          intro x hx
          rw [Finset.filter_insert, if_neg (not_lt.mpr (ha x hx).le)]
        have e2 : (insert a s).filter (· < a) = s := by
          rw [Finset.filter_insert, if_neg (lt_irrefl a)]
          exact Finset.filter_true_of_mem ha
        rw [Finset.card_insert_of_notMem hnot]
        constructor
        · rintro ⟨x, hx, rfl⟩
          rcases Finset.mem_insert.mp hx with rfl | hx
          · rw [e2]; omega
          · have := (ih _).mp ⟨x, hx, rfl⟩
            rw [e1 x hx]; omega
        · intro hk
          by_cases hk' : k < s.card
          · obtain ⟨x, hx, hxk⟩ := (ih k).mpr hk'
            exact ⟨x, Finset.mem_insert_of_mem hx, by rw [e1 x hx, hxk]⟩
          · exact ⟨a, Finset.mem_insert_self a s, by rw [e2]; omega⟩
    intro k
    rw [← gen]
    simp

/-- Non-vacuity: a value spanning three ranks with an empty rank in between. -/
example : uniqueLabels [[3, 5], [], [5, 5], [5], [9, 10], []] = [[0, 1], [], [1, 1], [1], [2, 3], []] := by decide
example : ([[3, 5], [], [5, 5], [5], [9, 10], []] : List (List Nat)).flatten.Pairwise (· ≤ ·) := by decide

/-! ## C08: bincount -/

/-- Specification: total weight of the items with label `v` (their number if every weight is 1). -/
def weightOf {M : Type} [AddCommMonoid M] (items : List (Nat × M)) (v : Nat) : M :=
  ((items.filter fun p => p.1 = v).map Prod.snd).sum

/-- Specification: one more than the largest label of sorted items, 0 if there are none. -/
def labelEnd {M : Type} (items : List (Nat × M)) : Nat :=
  match items.getLast? with
  | none => 0
  | some p => p.1 + 1

/-- Specification: the label of a rank's first bin, if `earlier` are the items of the ranks before it and `a` is
its first label: `a` if `a` already occurs earlier, else the label after the last earlier one. -/
def firstBin {M : Type} (earlier : List (Nat × M)) (a : Nat) : Nat :=
  if ∃ p ∈ earlier, p.1 = a then a else labelEnd earlier

theorem cnt_eq_weightOf {M : Type} [AddCommMonoid M] (l : List (Nat × M)) (v : Nat) : cnt l v = weightOf l v := by
  unfold cnt weightOf
  congr 2

theorem binOffset_eq_firstBin {M : Type} [AddCommMonoid M] (D : List (List (Nat × M)))
    (hs : D.flatten.Pairwise (fun x y => x.1 ≤ y.1)) (r : Nat) (d : List (Nat × M)) (hr : D[r]? = some d)
    (a : Nat × M) (ha : d.head? = some a) : binOffset D r d = firstBin (D.take r).flatten a.1 := by
  have A := around hs hr
  have hso := A.sorted
  rw [List.pairwise_append, List.pairwise_append] at hso
  obtain ⟨⟨hpre, hd, hpd⟩, -, -⟩ := hso
  unfold firstBin labelEnd
  by_cases h : ∃ p ∈ (D.take r).flatten, p.1 = a.1
  · rw [if_pos h]; exact (offset_nonempty A ha).2.2.1 h
  · rw [if_neg h]
    unfold binOffset
    rw [prev_eq]
    cases hp : (D.take r).flatten.getLast? with
    | none => rfl
    | some p =>
      cases d with
      | nil => simp at ha
      | cons x d =>
        simp only [List.head?_cons, Option.some.injEq] at ha; subst ha
        simp only [Option.map_some]
        rw [if_pos]
        intro e
        exact h ⟨p, (last_ge hpre hp).1, e⟩

/-- C08, default (`shared_edges=True`): for globally sorted labels the call succeeds, a rank without items has no bins,
and a rank whose items have labels `a .. z` has the bins `firstBin .. z`, each holding the *global* weight of its label. -/
theorem bincount_shared {M : Type} [AddCommMonoid M] (D : List (List (Nat × M)))
    (hs : D.flatten.Pairwise (fun x y => x.1 ≤ y.1)) :
    ∃ outs, bincount true D = some outs ∧ outs.length = D.length ∧
      ∀ r d N, D[r]? = some d → outs[r]? = some N →
        (d = [] → N = []) ∧
        ∀ a z, d.head? = some a → d.getLast? = some z →
          firstBin (D.take r).flatten a.1 ≤ a.1 ∧
          N = (List.range (z.1 + 1 - firstBin (D.take r).flatten a.1)).map fun j =>
            weightOf D.flatten (firstBin (D.take r).flatten a.1 + j) := by
  refine ⟨_, bincount_unfold true D hs, by simp, ?_⟩
  intro r d N hr hN
  rw [List.getElem?_mapIdx, hr, Option.map_some, Option.some.injEq] at hN
  subst hN
  constructor
  · rintro rfl; simp [mergeCounts, bins]
  · intro a z ha hz
    rw [← binOffset_eq_firstBin D hs r d hr a ha]
    refine ⟨(offset_nonempty (around hs hr) ha).1, ?_⟩
    rw [merge_eq true D hs r d hr a z ha hz]
    simp [cnt_eq_weightOf]

/-- C08, `shared_edges=False`: the local results concatenated over ranks are the global histogram: every label
`0 .. max` exactly once with its global weight. -/
theorem bincount_unshared {M : Type} [AddCommMonoid M] (D : List (List (Nat × M)))
    (hs : D.flatten.Pairwise (fun x y => x.1 ≤ y.1)) :
    ∃ outs, bincount false D = some outs ∧ outs.length = D.length ∧
      outs.flatten = (List.range (labelEnd D.flatten)).map (weightOf D.flatten) := by
  refine ⟨_, bincount_unfold false D hs, by simp, ?_⟩
  generalize ho : (D.mapIdx fun r l => mergeCounts false D (allBins D) r l (bins l (binOffset D r l))) = outs
  have hlen : outs.length = D.length := by rw [← ho]; simp
  have key : ∀ r, r ≤ D.length → (outs.take r).flatten
      = (List.range (labelEnd (D.take r).flatten)).map (weightOf D.flatten) := by
    intro r
    induction r with
    | zero => simp [labelEnd]
    | succ r ih =>
      intro hr
      have hr' : r < D.length := by omega
      have e1 : outs.take (r + 1) = outs.take r ++ [outs[r]'(by omega)] := List.take_succ_eq_append_getElem (by omega)
      have e2 : D.take (r + 1) = D.take r ++ [D[r]] := List.take_succ_eq_append_getElem hr'
      rw [e1, List.flatten_append, ih (by omega), e2, List.flatten_append]
      simp only [List.flatten_cons, List.flatten_nil, List.append_nil]
      have hout : outs[r]'(by omega) = mergeCounts false D (allBins D) r D[r] (bins D[r] (binOffset D r D[r])) := by
        simp only [← ho, List.getElem_mapIdx]
      rw [hout]
      have hDr : D[r]? = some D[r] := List.getElem?_eq_getElem hr'
      cases hz : D[r].getLast? with
      | none =>
        have he : D[r] = [] := by simpa using hz
        rw [he]
        simp [mergeCounts, bins]
      | some z =>
        obtain ⟨a, ha⟩ : ∃ a, D[r].head? = some a := by
          cases hh : D[r] with
          | nil => rw [hh] at hz; simp at hz
          | cons b l => exact ⟨b, rfl⟩
        rw [merge_eq false D hs r D[r] hDr a z ha hz, binOffset_eq_firstBin D hs r D[r] hDr a ha]
        have hso := (around hs hDr).sorted
        rw [List.pairwise_append, List.pairwise_append] at hso
        obtain ⟨⟨hpre, hd, hpd⟩, -, -⟩ := hso
        have haz : a.1 ≤ z.1 := (last_ge hd hz).2 a (head_le hd ha).1
        have hend : labelEnd ((D.take r).flatten ++ D[r]) = z.1 + 1 := by
          unfold labelEnd; rw [List.getLast?_append, hz]; rfl
        rw [hend]
        have hwin : ∀ s, s ≤ z.1 + 1 → (List.range s).map (weightOf D.flatten)
            ++ (List.range (z.1 + 1 - s)).map (fun j => weightOf D.flatten (s + j))
            = (List.range (z.1 + 1)).map (weightOf D.flatten) := by
          intro s hsle
          conv_rhs => rw [show z.1 + 1 = s + (z.1 + 1 - s) by omega, List.range_add, List.map_append, List.map_map]
          rfl
        have hstart : ∀ p, (D.take r).flatten.getLast? = some p → p.1 ≤ a.1 := fun p hp =>
          hpd p (last_ge hpre hp).1 a (head_le hd ha).1
        by_cases hsh : ∃ p ∈ (D.take r).flatten, p.1 = a.1
        · have hfb : firstBin (D.take r).flatten a.1 = a.1 := by unfold firstBin; rw [if_pos hsh]
          have hle : labelEnd (D.take r).flatten = a.1 + 1 := by
            unfold labelEnd
            cases hp : (D.take r).flatten.getLast? with
            | none =>
              have : (D.take r).flatten = [] := by simpa using hp
              rw [this] at hsh; simp at hsh
            | some p =>
              obtain ⟨q, hq, hqa⟩ := hsh
              have h1 := (last_ge hpre hp).2 q hq
              have h2 := hstart p hp
              simp only []; omega
          simp only [hsh, and_self, if_true, hfb, cnt_eq_weightOf]
          rw [hle, ← hwin (a.1 + 1) (by omega)]
          congr 1
          rw [show z.1 + 1 - a.1 = (z.1 - a.1) + 1 by omega, List.range_succ_eq_map, List.map_cons,
            List.tail_cons, List.map_map, show z.1 + 1 - (a.1 + 1) = z.1 - a.1 by omega]
          apply List.map_congr_left
          intro j _
          simp only [Function.comp_apply]
          congr 1; omega
        · have hfb : firstBin (D.take r).flatten a.1 = labelEnd (D.take r).flatten := by
            unfold firstBin; rw [if_neg hsh]
          simp only [hsh, and_false, if_false, hfb, cnt_eq_weightOf]
          apply hwin
          unfold labelEnd
          cases hp : (D.take r).flatten.getLast? with
          | none => simp
          | some p => have := hstart p hp; simp only []; omega
  have := key D.length (by omega)
  rwa [List.take_of_length_le (by omega), List.take_length] at this

/-- Non-vacuity: label 1 spans four ranks, one of them empty; labels with a gap are allowed. -/
example : bincount true [[(0, 1), (1, 1)], [], [(1, 1), (1, 1)], [(1, 1)], [(4, 1)]]
    = some [[1, 4], [], [4], [4], [0, 0, 1]] := by rfl
example : bincount false [[(0, 1), (1, 1)], [], [(1, 1), (1, 1)], [(1, 1)], [(4, 1)]]
    = some [[1, 4], [], [], [], [0, 0, 1]] := by rfl
example : ([[(0, 1), (1, 1)], [], [(1, 1), (1, 1)], [(1, 1)], [(4, 1)]] : List (List (Nat × Nat))).flatten.Pairwise
    (fun x y => x.1 ≤ y.1) := by decide

/-! ## C09: concat -/

theorem keyed_perm {α : Type} (P : Nat) (args : List (List (List α))) (hP : ∀ A ∈ args, A.length = P) (go : Nat) :
    ((List.range P).flatMap fun r => concatInp r go args).Perm
      ((args.map List.flatten).flatten.mapIdx fun i x => (go + i, x)) := by
  induction args generalizing go with
  | nil => simp [concatInp]
  | cons A rest ih =>
    have hA : A.length = P := hP A (by simp)
    simp only [concatInp]
    refine (List.flatMap_append_perm _ _ _).symm.trans ?_
    rw [List.map_cons, List.flatten_cons, List.mapIdx_append]
    apply List.Perm.append
    · apply List.Perm.of_eq
      have gen : ∀ (B : List (List α)) (k : Nat), ((List.range B.length).flatMap fun r =>
          match B[r]? with
          | none => []
          | some l => keyed go (k + ((B.map List.length).take r).sum) l)
          = B.flatten.mapIdx fun i x => (go + (k + i), x) := by
        intro B
        induction B with
        | nil => simp
        | cons b B ihB =>
          intro k
          rw [List.length_cons, List.range_succ_eq_map, List.flatMap_cons, List.flatMap_map,
            List.flatten_cons, List.mapIdx_append]
          congr 1
          · simp [keyed, Nat.add_assoc]
          · have := ihB (k + b.length)
            have e2 : (fun i x => (go + (k + (i + b.length)), x) : Nat → α → Nat × α)
                = fun i x => (go + (k + b.length + i), x) := by
              funext i x; congr 1; omega
            rw [e2, ← this]
            congr 1
            funext r
            simp [Nat.add_assoc]
      have h0 := gen A 0
      rw [hA] at h0
      simp only [Nat.zero_add] at h0
      refine Eq.trans ?_ h0
      congr 1
    · refine (ih (fun B hB => hP B (by simp [hB])) _).trans (List.Perm.of_eq ?_)
      congr 1
      funext i x
      congr 1
      rw [List.length_flatten]; omega

/-- C09: with every argument distributed over the same `P` ranks (any local lengths), the concatenated array is
globally the first argument followed by the second etc., cut into pieces of the requested local sizes (by default the
sums of the local sizes, for which the call cannot fail). -/
theorem concat_global {α : Type} (P : Nat) (args : List (List (List α))) (hP : ∀ A ∈ args, A.length = P)
    (sizes : List Nat) (hsz : sizes.sum = (args.map List.flatten).flatten.length) :
    ∃ outs, concat P args (some sizes) = some outs ∧ outs.map List.length = sizes
      ∧ outs.flatten = (args.map List.flatten).flatten := by
  have hperm := keyed_perm P args hP 0
  have hsorted : (((List.range P).map fun r => concatInp r 0 args).flatten).mergeSort (fun x y => x.1 ≤ y.1)
      = ((args.map List.flatten).flatten.mapIdx fun i x => (0 + i, x)) := by
    have p1 : ((((List.range P).map fun r => concatInp r 0 args).flatten).mergeSort (fun x y => x.1 ≤ y.1)).Perm
        ((args.map List.flatten).flatten.mapIdx fun i x => (0 + i, x)) :=
      (List.mergeSort_perm _ _).trans (by rw [← List.flatMap_def]; exact hperm)
    have s1 := List.pairwise_mergeSort (le := fun (x y : Nat × α) => decide (x.1 ≤ y.1))
      (fun a b c h1 h2 => by simp at h1 h2 ⊢; omega) (fun a b => by simp; omega)
      (((List.range P).map fun r => concatInp r 0 args).flatten)
    have s2 : ((args.map List.flatten).flatten.mapIdx fun i x => (0 + i, x)).Pairwise
        (fun x y => decide (x.1 ≤ y.1) = true) := by
      rw [List.pairwise_iff_getElem]
      intro i j hi hj hij
      simp; omega
    refine List.Perm.eq_of_pairwise (le := fun x y => decide (x.1 ≤ y.1) = true) ?_ s1 s2 p1
    intro a b ha hb h1 h2
    simp only [decide_eq_true_eq] at h1 h2
    have ha' := p1.subset ha
    rw [List.mem_mapIdx] at ha' hb
    obtain ⟨i, hi, rfl⟩ := ha'
    obtain ⟨j, hj, rfl⟩ := hb
    simp only at h1 h2
    have : i = j := by omega
    subst this; rfl
  have hlen : (((List.range P).map fun r => concatInp r 0 args).flatten.mergeSort (fun x y => x.1 ≤ y.1)).length
      = (args.map List.flatten).flatten.length := by rw [hsorted]; simp
  refine ⟨(sizes.mapIdx fun r n => ((((List.range P).map fun r => concatInp r 0 args).flatten.mergeSort
    (fun x y => x.1 ≤ y.1)).drop ((sizes.take r).sum)).take n).map (List.map Prod.snd), ?_, ?_, ?_⟩
  · unfold concat
    simp only []
    rw [if_pos (by rw [hlen, hsz])]
  · apply List.ext_getElem?
    intro i
    simp only [List.getElem?_map, List.getElem?_mapIdx]
    cases hi : sizes[i]? with
    | none => rfl
    | some c =>
      obtain ⟨hr', rfl⟩ := List.getElem?_eq_some_iff.mp hi
      have e := congrArg List.sum (List.take_append_drop i sizes)
      rw [List.drop_eq_getElem_cons hr', List.sum_append, List.sum_cons] at e
      simp only [Option.map_some, List.length_map, List.length_take, List.length_drop, Option.some.injEq, hlen]
      omega
  · rw [← List.map_flatten, NBK.Comm.windows_flatten, List.take_of_length_le (by rw [hlen, hsz]), hsorted]
    apply List.ext_getElem?
    intro i
    simp only [List.getElem?_map, List.getElem?_mapIdx]
    cases (args.map List.flatten).flatten[i]? <;> rfl

/-- C09, default sizes. -/
theorem concat_default {α : Type} (P : Nat) (args : List (List (List α))) (hP : ∀ A ∈ args, A.length = P) :
    ∃ outs, concat P args none = some outs
      ∧ (∀ r, r < P → (outs.map List.length)[r]? = some (args.map fun A => (A.map List.length)[r]?.getD 0).sum)
      ∧ outs.flatten = (args.map List.flatten).flatten := by
  have hperm := keyed_perm P args hP 0
  have hlen : ∀ r go, (concatInp r go args).length = (args.map fun A => (A.map List.length)[r]?.getD 0).sum := by
    intro r
    clear hperm hP
    induction args with
    | nil => intro go; rfl
    | cons A rest ih =>
      intro go
      simp only [concatInp, List.length_append, List.map_cons, List.sum_cons, ih]
      congr 1
      rw [List.getElem?_map]
      cases A[r]? <;> simp [keyed]
  have hs : (((List.range P).map fun r => concatInp r 0 args).map List.length).sum
      = (args.map List.flatten).flatten.length := by
    have := hperm.length_eq
    rw [List.flatMap_def, List.length_flatten, List.length_mapIdx] at this
    exact this
  obtain ⟨outs, h1, h2, h3⟩ := concat_global P args hP
    (((List.range P).map fun r => concatInp r 0 args).map List.length) hs
  refine ⟨outs, h1, ?_, h3⟩
  intro r hr
  rw [h2]
  simp [List.getElem?_map, List.getElem?_range hr, hlen]

/-- Non-vacuity: two arrays on two ranks, requested sizes 1 and 5. -/
example : ∃ outs, concat 2 [[[1, 2], [3]], [[7], [4, 5]]] (some [1, 5]) = some outs
    ∧ outs.map List.length = [1, 5] ∧ outs.flatten = [1, 2, 3, 7, 4, 5] :=
  concat_global 2 [[[1, 2], [3]], [[7], [4, 5]]] (by simp) [1, 5] (by simp)

end NBK.Dist
