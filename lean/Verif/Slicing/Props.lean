import Verif.Slicing.Model
import Verif.Gather.Props
import Mathlib.Data.List.GetD

/-! # Catalog slicing: properties C18 and C19 -/
set_option linter.unusedSimpArgs false
namespace NBK.Slicing
open NBK.PySlice

/-! ## C18 -/

theorem mapM_ok {α β ε : Type} (f : α → Except ε β) (g : α → β) (l : List α) (h : ∀ x ∈ l, f x = .ok (g x)) :
    l.mapM f = .ok (l.map g) := by
  induction l with
  | nil => rfl
  | cons x l ih =>
    rw [List.mapM_cons, h x (by simp), ih (fun y hy => h y (by simp [hy]))]
    rfl

/-- The size formula is the number of visited positions. -/
theorem newSize_slice (n : Nat) (s : Slice) (a b c : Int) (h : indices n s = some (a, b, c)) :
    newSize n (.slice s) = .ok (walk a b c).length := by
  simp only [newSize, h]
  obtain ⟨h0, _⟩ := indices_bounds n s a b c h
  simp only [Except.ok.injEq, floordiv]
  rcases lt_or_gt_of_ne h0 with hc | hc
  · have hnc : ¬ c > 0 := by omega
    have := walk_length_neg a b c hc
    simp only [hnc, if_false]
    have e : Int.fdiv (b - a + (c - -1)) c = (a - b + (-c - 1)) / (-c) := by
      have e1 := Int.neg_fdiv_neg (a - b + (-c - 1)) (-c)
      rw [show -(a - b + (-c - 1)) = b - a + (c - -1) by ring, neg_neg] at e1
      rw [e1, Int.fdiv_eq_ediv_of_nonneg _ (by omega)]
    rw [e]; omega
  · have := walk_length_pos a b c hc
    simp only [hc, if_true]
    rw [Int.fdiv_eq_ediv_of_nonneg _ (by omega)]; omega

/-- C18, slices: for every start, stop and step ≠ 0 (any sign, out of range, missing), on every catalog, the slice
succeeds; every column of the result holds exactly the rows whose number the slice selects, in ascending
order, or descending for a negative step; the size is the number of rows. -/
theorem slice_rows {α : Type} (c : Cat α) (hc : ∀ p ∈ c.cols, p.2.length = c.size) (s : Slice)
    (hs : s.step ≠ some 0) :
    ∃ a b st, indices c.size s = some (a, b, st) ∧ st ≠ 0 ∧ ∃ n, getSlice c (.slice s) = .ok ⟨n,
      c.cols.map fun p => (p.1, if st > 0 then rowsWhere p.2 (selected a b st)
        else (rowsWhere p.2 (selected a b st)).reverse)⟩ ∧
      n = ((List.range c.size).filter (selected a b st)).length := by
  have : ∃ a b st, indices c.size s = some (a, b, st) := by
    unfold indices
    have : ¬ s.step.getD 1 = 0 := by
      cases hst : s.step with
      | none => simp
      | some x => simp; rintro rfl; exact hs hst
    simp [this]
  obtain ⟨a, b, st, h⟩ := this
  obtain ⟨h0, _⟩ := indices_bounds _ s a b st h
  refine ⟨a, b, st, h, h0, (walk a b st).length, ?_, ?_⟩
  · unfold getSlice
    simp only [reduceCtorEq, if_false, newSize_slice _ s a b st h]
    rw [mapM_ok _ (fun p => (p.1, if st > 0 then rowsWhere p.2 (selected a b st)
        else (rowsWhere p.2 (selected a b st)).reverse))]
    · show fromColumns _ _ = _
      unfold fromColumns
      rw [if_neg]
      simp only [List.any_map, List.any_eq_true, Function.comp, bne_iff_ne, ne_eq, not_exists, not_and, not_not]
      intro p hp
      have h1 := pySlice_eq p.2 s a b st (by rw [hc p hp]; exact h)
      unfold pySlice at h1
      rw [hc p hp, h] at h1
      simp only [Option.map_some, Option.some.injEq] at h1
      rw [← h1]
      apply rowsAt_length
      intro q hq
      rw [hc p hp]
      exact walk_valid _ s a b st h q hq
    · intro p hp
      simp only [colIndex]
      rw [pySlice_eq p.2 s a b st (by rw [hc p hp]; exact h)]
      rfl
  · rw [walk_eq_selected _ s a b st h]
    split <;> simp

theorem takeMask_length {α : Type} (l : List α) (m : List Bool) (h : m.length = l.length) :
    ((l.zip m).filterMap fun x => if x.2 then some x.1 else none).length = m.count true := by
  induction l generalizing m with
  | nil => simp at h; subst h; rfl
  | cons x l ih =>
    cases m with
    | nil => simp at h
    | cons b m =>
      simp at h
      cases b <;> simp [ih m h]

theorem takeMask_rows {α : Type} (l : List α) (m : List Bool) (h : m.length = l.length) :
    ((l.zip m).filterMap fun x => if x.2 then some x.1 else none) = rowsWhere l (fun j => m.getD j false) := by
  have : ∀ (k : Nat) (m' : List Bool), (∀ j, m.getD j false = m'.getD (k + j) false) → m'.length = k + l.length →
      ((l.zip m).filterMap fun x => if x.2 then some x.1 else none) =
      ((l.zipIdx k).filter fun x => m'.getD x.2 false).map (·.1) := by
    induction l generalizing m with
    | nil => simp
    | cons x l ih =>
      intro k m' hm hl
      cases m with
      | nil => simp at h
      | cons b m =>
        simp at h
        have h0 := hm 0
        simp at h0
        have := ih m h (k + 1) m' (fun j => by
          have := hm (j + 1)
          simp only [List.getD_cons_succ] at this
          rw [this]; congr 1; omega) (by simp at hl; omega)
        rw [List.zipIdx_cons, List.zip_cons_cons, List.filterMap_cons, List.filter_cons]
        have hb : m'.getD k false = b := by rw [List.getD_eq_getElem?_getD, ← h0]
        rw [hb]
        cases b <;> simp only [Bool.false_eq_true, if_true, if_false, List.map_cons, this]
  exact this 0 m (by simp) (by simpa using h)

/-- C18, boolean masks: a mask of the catalog's length selects exactly the rows marked True, in order; the size
is their number.  Any other length is rejected with a KeyError. -/
theorem mask_rows {α : Type} (c : Cat α) (hc : ∀ p ∈ c.cols, p.2.length = c.size) (m : List Bool) :
    (m.length = c.size → getSlice c (.mask m) = .ok ⟨m.count true,
      c.cols.map fun p => (p.1, rowsWhere p.2 (fun j => m.getD j false))⟩) ∧
    (m.length ≠ c.size → getSlice c (.mask m) = .error .keyError) := by
  constructor
  · intro hm
    unfold getSlice
    simp only [reduceCtorEq, if_false, newSize, hm, ne_eq, not_true_eq_false]
    rw [mapM_ok _ (fun p => (p.1, rowsWhere p.2 (fun j => m.getD j false)))]
    · show fromColumns _ _ = _
      unfold fromColumns
      rw [if_neg]
      simp only [List.any_map, List.any_eq_true, Function.comp, bne_iff_ne, ne_eq, not_exists, not_and, not_not]
      intro p hp
      rw [← takeMask_rows p.2 m (by rw [hc p hp, hm])]
      exact takeMask_length _ _ (by rw [hc p hp, hm])
    · intro p hp
      simp only [colIndex, takeMask, hc p hp, hm, ne_eq, not_true_eq_false, if_false]
      rw [takeMask_rows p.2 m (by rw [hc p hp, hm])]
      rfl
  · intro hm
    unfold getSlice
    simp only [reduceCtorEq, if_false, newSize, ne_eq, hm, not_false_eq_true, if_true]
    rfl

/-- The row number an integer index addresses. -/
def wrap (n : Nat) (p : Int) : Nat := (if p < 0 then p + n else p).toNat

theorem takeInts_ok {α : Type} (l : List α) (ps : List Int) (h : ∀ p ∈ ps, -(l.length : Int) ≤ p ∧ p < l.length) :
    ∃ r, takeInts l ps = .ok r ∧ r.map some = ps.map fun p => l[wrap l.length p]? := by
  induction ps with
  | nil => exact ⟨[], rfl, rfl⟩
  | cons p ps ih =>
    obtain ⟨r, h1, h2⟩ := ih (fun q hq => h q (by simp [hq]))
    obtain ⟨h3, h4⟩ := h p (by simp)
    have h5 : ¬ (if p < 0 then p + (l.length : Int) else p) < 0 := by split <;> omega
    have h6 : (if p < 0 then p + (l.length : Int) else p).toNat < l.length := by split <;> omega
    refine ⟨l[(if p < 0 then p + (l.length : Int) else p).toNat] :: r, ?_, ?_⟩
    · unfold takeInts at h1 ⊢
      rw [List.mapM_cons, h1]
      simp only [h5, if_false, List.getElem?_eq_getElem h6]
      rfl
    · simp only [List.map_cons, h2, wrap, List.getElem?_eq_getElem h6]

/-- C18, lists of integers within range (also negative, repeated, unsorted): row `k` of the result is the row
named by the `k`-th index, and the size is the number of indices. -/
theorem ints_rows {α : Type} (c : Cat α) (hc : ∀ p ∈ c.cols, p.2.length = c.size) (ps : List Int)
    (h : ∀ p ∈ ps, -(c.size : Int) ≤ p ∧ p < c.size) :
    ∃ cols, getSlice c (.ints ps) = .ok ⟨ps.length, cols⟩ ∧ cols.map (·.1) = c.cols.map (·.1) ∧
      cols.map (fun p => p.2.map some) = c.cols.map fun p => ps.map fun q => p.2[wrap c.size q]? := by
  have hcol : ∀ p ∈ c.cols, ∃ r, colIndex p.2 (.ints ps) = .ok r ∧ r.length = ps.length ∧
      r.map some = ps.map fun q => p.2[wrap c.size q]? := by
    intro p hp
    obtain ⟨r, h1, h2⟩ := takeInts_ok p.2 ps (by rw [hc p hp]; exact h)
    rw [hc p hp] at h2
    refine ⟨r, h1, ?_, h2⟩
    have := congrArg List.length h2
    simpa using this
  have : ∃ cols : List (String × List α), (c.cols.mapM fun p => do
      let r ← colIndex p.2 (.ints ps)
      pure (p.1, r) : Except Err _) = .ok cols ∧ (∀ p ∈ cols, p.2.length = ps.length) ∧
      cols.map (·.1) = c.cols.map (·.1) ∧
      cols.map (fun p => p.2.map some) = c.cols.map fun p => ps.map fun q => p.2[wrap c.size q]? := by
    generalize c.cols = L at hcol
    induction L with
    | nil => exact ⟨[], rfl, by simp, rfl, rfl⟩
    | cons p L ih =>
      obtain ⟨cols, i1, i2, i3, i4⟩ := ih (fun q hq => hcol q (by simp [hq]))
      obtain ⟨r, h1, h2, h3⟩ := hcol p (by simp)
      refine ⟨(p.1, r) :: cols, ?_, ?_, ?_, ?_⟩
      · rw [List.mapM_cons, i1, h1]; rfl
      · intro q hq
        rcases List.mem_cons.mp hq with rfl | hq
        · exact h2
        · exact i2 q hq
      · simp [i3]
      · simp [i4, h3]
  obtain ⟨cols, h1, h2, h3, h4⟩ := this
  refine ⟨cols, ?_, h3, h4⟩
  unfold getSlice
  simp only [reduceCtorEq, if_false, newSize]
  rw [h1]
  show fromColumns _ _ = _
  unfold fromColumns
  rw [if_neg]
  simp only [List.any_eq_true, bne_iff_ne, ne_eq, not_exists, not_and, not_not]
  exact h2

/-- An integer out of range is rejected (if the catalog has any stored column). -/
theorem ints_out_of_range {α : Type} (c : Cat α) (hc : ∀ p ∈ c.cols, p.2.length = c.size) (hne : c.cols ≠ [])
    (ps : List Int) (q : Int) (hq : q ∈ ps) (h : q < -(c.size : Int) ∨ (c.size : Int) ≤ q) :
    getSlice c (.ints ps) = .error .indexError := by
  have htk : ∀ (l : List α), l.length = c.size → takeInts l ps = .error .indexError := by
    intro l hl
    unfold takeInts
    induction ps with
    | nil => simp at hq
    | cons p ps ih =>
      rw [List.mapM_cons]
      by_cases hpq : p < -(c.size : Int) ∨ (c.size : Int) ≤ p
      · by_cases h5 : (if p < 0 then p + (l.length : Int) else p) < 0
        · simp only [h5, if_true]; rfl
        · have : l[(if p < 0 then p + (l.length : Int) else p).toNat]? = none := by
            rw [List.getElem?_eq_none_iff]
            split at h5 <;> rename_i h6 <;> simp only [h6, if_true, if_false] <;> omega
          simp only [h5, if_false, this]; rfl
      · have hqs : q ∈ ps := by
          rcases List.mem_cons.mp hq with rfl | h'
          · exact absurd h hpq
          · exact h'
        have := ih hqs
        have h5 : ¬ (if p < 0 then p + (l.length : Int) else p) < 0 := by split <;> omega
        have h6 : (if p < 0 then p + (l.length : Int) else p).toNat < l.length := by split <;> omega
        simp only [h5, if_false, List.getElem?_eq_getElem h6]
        rw [this]; rfl
  obtain ⟨size, cols⟩ := c
  cases cols with
  | nil => exact absurd rfl hne
  | cons p L =>
    unfold getSlice
    simp only [reduceCtorEq, if_false, newSize]
    rw [List.mapM_cons]
    simp only [colIndex]
    rw [htk p.2 (hc p (by simp))]
    rfl

/-- Non-vacuity and sanity: a reversed slice with out-of-range bounds on a two-column catalog. -/
example : (∀ p ∈ ([("x", [10, 11, 12, 13, 14]), ("y", [0, 1, 2, 3, 4])] : List (String × List Nat)), p.2.length = 5) ∧
    (indices 5 ⟨some 99, some (-4), some (-2)⟩ = some (4, 1, -2)) ∧
    (rowsWhere [10, 11, 12, 13, 14] (selected 4 1 (-2))).reverse = [14, 12] := by decide

/-! ## C19 -/

theorem readAll_some {α : Type} (l : List α) : readAll (l.map some) = .ok l := by
  unfold readAll
  induction l with
  | nil => rfl
  | cons x l ih => rw [List.map_cons, List.mapM_cons, ih]; rfl

theorem mapM_readAll {α : Type} (ps : List (List α)) : (ps.map (List.map some)).mapM readAll = .ok ps := by
  induction ps with
  | nil => rfl
  | cons x l ih => rw [List.map_cons, List.mapM_cons, ih, readAll_some]; rfl

theorem scatter0_counts {α : Type} (P : Nat) (hP : 0 < P) (cs : List Nat) (rows : List α) (h1 : cs.length = P)
    (h2 : cs.sum = rows.length) :
    ∃ ps, scatter0 P (some cs) rows = .ok ps ∧ ps.map List.length = cs ∧ ps.flatten = rows := by
  obtain ⟨ps, e1, e2, e3⟩ := NBK.Gather.scatter_counts (δ := Unit) (fun _ => false) ⟨(), [], rows⟩
    (List.replicate (P - 1) .none) rfl cs (by simp; omega) h2
  refine ⟨ps, ?_, e2, e3⟩
  unfold scatter0
  rw [e1]
  exact mapM_readAll ps

theorem scatter0_even {α : Type} (P : Nat) (hP : 0 < P) (rows : List α) :
    ∃ ps, scatter0 P none rows = .ok ps ∧ ps.length = P ∧ ps.flatten = rows ∧
      ∀ p ∈ ps, ∀ q ∈ ps, p.length ≤ q.length + 1 := by
  obtain ⟨ps, e1, e2, e3, e4, _⟩ := NBK.Gather.scatter_default (δ := Unit) (fun _ => false) ⟨(), [], rows⟩
    (List.replicate (P - 1) .none) rfl
  refine ⟨ps, ?_, by rw [e2]; simp; omega, e3, e4⟩
  unfold scatter0
  rw [e1]
  exact mapM_readAll ps

theorem gather0_flatten {α : Type} (D : List (List α)) (hD : D ≠ []) : gather0 D = .ok D.flatten := by
  unfold gather0
  rw [NBK.Gather.gather_rows (fun _ => false) (.rank 0) (D.map fun d => ⟨(), [], d⟩) () [] rfl (by simp)]
  cases D with
  | nil => exact absurd rfl hD
  | cons d D =>
    simp only [lift, List.map_cons, List.mapIdx_cons, NBK.Gather.receives, or_true, if_true]
    have : (List.map NBK.Gather.Arr.rows ((⟨(), [], d⟩ : NBK.Gather.Arr Unit α) :: List.map (fun d => ⟨(), [], d⟩) D)) =
        d :: D := by
      simp [Function.comp_def]
    show readAll _ = _
    rw [List.map_cons] at this
    rw [this, readAll_some]

theorem rowsWhere_append {α : Type} (l₁ l₂ : List α) (P : Nat → Bool) :
    rowsWhere (l₁ ++ l₂) P = rowsWhere l₁ P ++ rowsWhere l₂ (fun j => P (j + l₁.length)) := by
  unfold rowsWhere
  rw [List.zipIdx_append, List.filter_append, List.map_append]
  congr 1
  rw [show (0 + l₁.length : Nat) = l₁.length by omega]
  have : l₂.zipIdx l₁.length = l₂.zipIdx.map fun x => (x.1, x.2 + l₁.length) := by
    rw [List.zipIdx_eq_map_add]
    apply List.map_congr_left
    intro x _
    simp [Nat.add_comm]
  rw [this, List.filter_map, List.map_map]
  rfl

theorem subset_flatten {α : Type} (D : List (List α)) (M : List (List Bool)) (h : M.map List.length = D.map List.length)
    (P : Nat → Bool) (hP : ∀ j, P j = M.flatten.getD j false) :
    ((D.zip M).map fun x => rowsWhere x.1 (fun j => x.2.getD j false)).flatten = rowsWhere D.flatten P := by
  induction D generalizing M P with
  | nil => simp [rowsWhere]
  | cons d D ih =>
    cases M with
    | nil => simp at h
    | cons m M =>
      simp at h
      obtain ⟨h1, h2⟩ := h
      rw [List.zip_cons_cons, List.map_cons, List.flatten_cons, List.flatten_cons, rowsWhere_append]
      congr 1
      · unfold rowsWhere
        congr 1
        apply List.filter_congr
        intro x hx
        have hx2 : x.2 < d.length := by
          have := List.snd_lt_of_mem_zipIdx hx
          simpa using this
        rw [hP, List.flatten_cons]
        simp only [List.getD_eq_getElem?_getD]
        rw [List.getElem?_append_left (by omega)]
      · apply ih M h2
        intro j
        rw [hP, List.flatten_cons]
        simp only [List.getD_eq_getElem?_getD]
        rw [List.getElem?_append_right (by omega)]
        congr 2; omega

theorem indices_isSome (n : Nat) (s : Slice) (hs : s.step ≠ some 0) : ∃ a b st, indices n s = some (a, b, st) := by
  unfold indices
  have : ¬ s.step.getD 1 = 0 := by
    cases hst : s.step with
    | none => simp
    | some x => simp; rintro rfl; exact hs hst
  simp [this]

theorem gslice_core {α : Type} (D : List (List α)) (hD : D ≠ []) (s : Slice) (red : Bool) (a b st : Int)
    (h : indices D.flatten.length s = some (a, b, st)) :
    ∃ out, gslice D s red = .ok out ∧ out.length = D.length ∧ out.flatten = rowsWhere D.flatten (selected a b st) ∧
      (red = true → ∀ p ∈ out, ∀ q ∈ out, p.length ≤ q.length + 1) := by
  have hlen : (D.map List.length).sum = D.flatten.length := by simp [List.length_flatten]
  have hP : 0 < D.length := List.length_pos_iff.mpr hD
  obtain ⟨M, m1, m2, m3⟩ := scatter0_counts D.length hP (D.map List.length)
    ((List.range D.flatten.length).map fun j : Nat => decide ((j : Int) ∈ walk a b st)) (by simp) (by simpa using hlen)
  have hmask : globalMask (D.map List.length).sum s =
      .ok ((List.range D.flatten.length).map fun j : Nat => decide ((j : Int) ∈ walk a b st)) := by
    unfold globalMask
    rw [hlen, h]
  have hMD : M.length = D.length := by have := congrArg List.length m2; simpa using this
  have hsub : ((D.zip M).mapM fun x => do
      let c ← getSlice (α := α) ⟨x.1.length, [("col", x.1)]⟩ (.mask x.2)
      pure ((c.cols.map (·.2)).flatten) : Except Err _) =
      .ok ((D.zip M).map fun x => rowsWhere x.1 (fun j => x.2.getD j false)) := by
    apply mapM_ok
    intro x hx
    obtain ⟨i, hi, rfl⟩ := List.getElem_of_mem hx
    have hl : (M[i]'(by simp at hi; omega)).length = (D[i]'(by simp at hi; omega)).length := by
      have h1 : (M.map List.length)[i]? = (D.map List.length)[i]? := by rw [m2]
      simp at hi
      have hi1 : i < M.length := by omega
      have hi2 : i < D.length := by omega
      rw [List.getElem?_map, List.getElem?_map, List.getElem?_eq_getElem hi1, List.getElem?_eq_getElem hi2] at h1
      simpa using h1
    have := (mask_rows (⟨((D.zip M)[i]).1.length, [("col", ((D.zip M)[i]).1)]⟩ : Cat α) (by simp) ((D.zip M)[i]).2).1
      (by simp [hl])
    rw [this]
    simp [pure, Except.pure, bind, Except.bind]
  have hfl := subset_flatten D M m2 (fun j => M.flatten.getD j false) (fun _ => rfl)
  have hsel : rowsWhere D.flatten (fun j => M.flatten.getD j false) = rowsWhere D.flatten (selected a b st) := by
    unfold rowsWhere
    congr 1
    apply List.filter_congr
    intro x hx
    have hx2 : x.2 < D.flatten.length := by
      have := List.snd_lt_of_mem_zipIdx hx
      simpa using this
    rw [m3]
    simp only [List.getD_eq_getElem?_getD, List.getElem?_map]
    rw [List.getElem?_range hx2]
    simp only [Option.map_some, Option.getD_some]
    rw [Bool.eq_iff_iff, decide_eq_true_iff, walk_eq_selected _ s a b st h]
    have : ∀ L : List Nat, (∀ y, y ∈ L ↔ (y < D.flatten.length ∧ selected a b st y = true)) →
        ((x.2 : Int) ∈ L.map (fun j : Nat => (j : Int)) ↔ selected a b st x.2 = true) := by
      intro L hL
      rw [List.mem_map]
      constructor
      · rintro ⟨y, hy, hyx⟩
        have : y = x.2 := by omega
        rw [← this]; exact ((hL y).mp hy).2
      · intro hb
        exact ⟨x.2, (hL _).mpr ⟨hx2, hb⟩, rfl⟩
    apply this
    intro y
    split <;> simp
  unfold gslice
  rw [hmask]
  simp only [bind, Except.bind, m1]
  simp only [bind, Except.bind] at hsub
  rw [hsub]
  cases red with
  | false =>
    refine ⟨_, rfl, by simp [hMD], by rw [hfl, hsel], by simp⟩
  | true =>
    have hne : ((D.zip M).map fun x => rowsWhere x.1 (fun j => x.2.getD j false)) ≠ [] := by
      apply List.length_pos_iff.mp; simp [hMD]; omega
    have hg := gather0_flatten _ hne
    obtain ⟨ps, e1, e2, e3, e4⟩ := scatter0_even D.length hP
      ((D.zip M).map fun x => rowsWhere x.1 (fun j => x.2.getD j false)).flatten
    refine ⟨ps, ?_, e2, by rw [e3, hfl, hsel], fun _ => e4⟩
    simp only [Bool.not_true, Bool.false_eq_true, if_false]
    rw [hg]
    exact e1

/-- C19 for a positive (or missing) step: on any number of ranks and any distribution the global rows of the result
are those of Python slicing of the global rows, in order; with redistribution the local sizes differ by
at most one. For negative steps see `gslice_negative`. -/
theorem gslice_rows_partial {α : Type} (D : List (List α)) (hD : D ≠ []) (s : Slice) (red : Bool)
    (hs : s.step.getD 1 > 0) :
    ∃ out, gslice D s red = .ok out ∧ out.length = D.length ∧ pySlice D.flatten s = some out.flatten ∧
      (red = true → ∀ p ∈ out, ∀ q ∈ out, p.length ≤ q.length + 1) := by
  obtain ⟨a, b, st, h⟩ := indices_isSome D.flatten.length s (by rintro h; simp [h] at hs)
  obtain ⟨out, h1, h2, h3, h4⟩ := gslice_core D hD s red a b st h
  refine ⟨out, h1, h2, ?_, h4⟩
  obtain ⟨_, hst, _⟩ := indices_bounds _ s a b st h
  rw [pySlice_eq _ s a b st h, h3, if_pos (by omega)]

/-- C19 for a negative step: the rows are the right ones but in the opposite order of the Python slice. -/
theorem gslice_negative {α : Type} (D : List (List α)) (hD : D ≠ []) (s : Slice) (red : Bool)
    (hs : s.step.getD 1 < 0) :
    ∃ out, gslice D s red = .ok out ∧ out.length = D.length ∧ pySlice D.flatten s = some out.flatten.reverse := by
  obtain ⟨a, b, st, h⟩ := indices_isSome D.flatten.length s (by rintro h; simp [h] at hs)
  obtain ⟨out, h1, h2, h3, h4⟩ := gslice_core D hD s red a b st h
  refine ⟨out, h1, h2, ?_⟩
  obtain ⟨_, hst, _⟩ := indices_bounds _ s a b st h
  rw [pySlice_eq _ s a b st h, h3, if_neg (by omega)]

/-- Hence C19 is false for a negative step: `gslice(None, None, -1)` of `[0, 1, 2]` on two ranks. -/
theorem gslice_negative_wrong : ∃ (D : List (List Nat)) (out : List (List Nat)),
    gslice D ⟨none, none, some (-1)⟩ true = .ok out ∧ pySlice D.flatten ⟨none, none, some (-1)⟩ ≠ some out.flatten := by
  obtain ⟨out, h1, _, h3⟩ := gslice_negative [[0, 1], [2]] (by simp) ⟨none, none, some (-1)⟩ true (by decide)
  refine ⟨_, out, h1, ?_⟩
  rw [h3]
  have h4 : pySlice [[0, 1], [2]].flatten ⟨none, none, some (-1)⟩ = some [2, 1, 0] := by
    rw [pySlice_eq _ _ 2 (-1) (-1) (by decide)]; decide
  rw [h3] at h4
  intro h
  simp only [Option.some.injEq] at h h4
  rw [h] at h4
  rw [← h, h4] at h
  exact absurd h (by rw [h4] at *; decide)

/-- Non-vacuity: a positive step on three ranks, one of them empty. -/
example : ([[1, 2], [], [3]] : List (List Nat)) ≠ [] ∧ (⟨some 1, none, some 2⟩ : Slice).step.getD 1 > 0 := by decide

end NBK.Slicing
