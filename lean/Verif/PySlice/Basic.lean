import Mathlib.Tactic.Linarith
import Mathlib.Tactic.Ring
import Mathlib.Tactic.Positivity
import Mathlib.Data.List.Nodup

/-!
# Python slices

The semantics of Python slice objects (CPython `PySlice_AdjustIndices`, documented for `slice.indices`), shared by several
topics, and helper lemmas.  This is language semantics, not nbodykit code.
-/
set_option linter.unusedSimpArgs false
namespace NBK.PySlice

/-- A slice object `start:stop:step`; `none` is a missing field. -/
structure Slice where
  start : Option Int
  stop : Option Int
  step : Option Int
  deriving DecidableEq, Repr

/-- Clip one bound of a slice of a sequence of length `n`. -/
def clip (n : Nat) (neg : Bool) (i : Int) : Int :=
  if i < 0 then
    if i + n < 0 then (if neg then -1 else 0) else i + n
  else if i ≥ n then (if neg then (n : Int) - 1 else n)
  else i

/-- `slice.indices(n)`: `none` is the ValueError for a zero step. -/
def indices (n : Nat) (s : Slice) : Option (Int × Int × Int) :=
  let step := s.step.getD 1
  if step = 0 then none else
  let neg := decide (step < 0)
  let start := match s.start with
    | none => if neg then (n : Int) - 1 else 0
    | some i => clip n neg i
  let stop := match s.stop with
    | none => if neg then -1 else n
    | some i => clip n neg i
  some (start, stop, step)

/-- The positions visited by `range(start, stop, step)`. -/
def walk (i stop step : Int) : List Int :=
  if _h : step > 0 then
    if _h2 : i < stop then i :: walk (i + step) stop step else []
  else if _h : step < 0 then
    if _h2 : stop < i then i :: walk (i + step) stop step else []
  else []
termination_by (if step > 0 then stop - i else i - stop).toNat
decreasing_by
  all_goals simp [*]
  all_goals omega

/-- Rows of a list at given (possibly invalid) positions. -/
def rowsAt {α : Type} (l : List α) (ps : List Int) : List α :=
  ps.filterMap fun p => if p < 0 then none else l[p.toNat]?

/-- `l[start:stop:step]` for a list or a numpy array; `none` is the ValueError. -/
def pySlice {α : Type} (l : List α) (s : Slice) : Option (List α) :=
  (indices l.length s).map fun (a, b, c) => rowsAt l (walk a b c)

theorem walk_pos (i stop step : Int) (h : step > 0) :
    walk i stop step = if i < stop then i :: walk (i + step) stop step else [] := by
  rw [walk]; simp [h]

theorem walk_neg (i stop step : Int) (h : step < 0) :
    walk i stop step = if stop < i then i :: walk (i + step) stop step else [] := by
  rw [walk]
  have : ¬ step > 0 := by omega
  simp [h, this]

/-- Number of positions, positive step. -/
theorem walk_length_pos (i stop step : Int) (h : step > 0) :
    ((walk i stop step).length : Int) = max 0 ((stop - i + (step - 1)) / step) := by
  generalize hm : (stop - i).toNat = m
  induction m using Nat.strongRecOn generalizing i with
  | ind m ih =>
    rw [walk_pos i stop step h]
    split
    · rename_i hlt
      have := ih (stop - (i + step)).toNat (by omega) (i + step) rfl
      simp only [List.length_cons, Nat.cast_add, Nat.cast_one, this]
      have e : stop - i + (step - 1) = (stop - (i + step) + (step - 1)) + 1 * step := by ring
      rw [e, Int.add_mul_ediv_right _ _ (by omega)]
      have : (stop - (i + step) + (step - 1)) / step ≥ 0 := by
        apply Int.ediv_nonneg <;> omega
      omega
    · rename_i hlt
      have : (stop - i + (step - 1)) / step ≤ 0 := by
        have : (stop - i + (step - 1)) / step < 1 := Int.ediv_lt_of_lt_mul h (by omega)
        omega
      simp; omega

/-- Number of positions, negative step. -/
theorem walk_length_neg (i stop step : Int) (h : step < 0) :
    ((walk i stop step).length : Int) = max 0 ((i - stop + (-step - 1)) / (-step)) := by
  generalize hm : (i - stop).toNat = m
  induction m using Nat.strongRecOn generalizing i with
  | ind m ih =>
    rw [walk_neg i stop step h]
    split
    · rename_i hlt
      have := ih (i + step - stop).toNat (by omega) (i + step) rfl
      simp only [List.length_cons, Nat.cast_add, Nat.cast_one, this]
      have e : i - stop + (-step - 1) = (i + step - stop + (-step - 1)) + 1 * (-step) := by ring
      rw [e, Int.add_mul_ediv_right _ _ (by omega)]
      have : (i + step - stop + (-step - 1)) / (-step) ≥ 0 := by
        apply Int.ediv_nonneg <;> omega
      omega
    · rename_i hlt
      have : (i - stop + (-step - 1)) / (-step) ≤ 0 := by
        have : (i - stop + (-step - 1)) / (-step) < 1 := Int.ediv_lt_of_lt_mul (by omega) (by omega)
        omega
      simp only [List.length_nil, Nat.cast_zero]; omega

/-- The `k`-th position, positive step. -/
theorem walk_get_pos (i stop step : Int) (h : step > 0) (k : Nat) :
    (walk i stop step)[k]? = if i + k * step < stop then some (i + k * step) else none := by
  induction k generalizing i with
  | zero => rw [walk_pos i stop step h]; split <;> simp_all
  | succ k ih =>
    rw [walk_pos i stop step h]
    split
    · rw [List.getElem?_cons_succ, ih]
      have e : i + step + (k : Int) * step = i + ((k + 1 : Nat) : Int) * step := by push_cast; ring
      rw [e]
    · have : (k + 1 : Int) * step ≥ 0 := by positivity
      have hn : ¬ (i + ((k + 1 : Nat) : Int) * step < stop) := by push_cast; omega
      rw [if_neg hn]; rfl

/-- The `k`-th position, negative step. -/
theorem walk_get_neg (i stop step : Int) (h : step < 0) (k : Nat) :
    (walk i stop step)[k]? = if stop < i + k * step then some (i + k * step) else none := by
  induction k generalizing i with
  | zero => rw [walk_neg i stop step h]; split <;> simp_all
  | succ k ih =>
    rw [walk_neg i stop step h]
    split
    · rw [List.getElem?_cons_succ, ih]
      have e : i + step + (k : Int) * step = i + ((k + 1 : Nat) : Int) * step := by push_cast; ring
      rw [e]
    · have : (k + 1 : Int) * (-step) ≥ 0 := by have : -step > 0 := by omega
                                               positivity
      have hn : ¬ (stop < i + ((k + 1 : Nat) : Int) * step) := by push_cast; nlinarith
      rw [if_neg hn]; rfl

/-- Bounds of a normalised slice. -/
theorem indices_bounds (n : Nat) (s : Slice) (a b c : Int) (h : indices n s = some (a, b, c)) :
    c ≠ 0 ∧ c = s.step.getD 1 ∧ (c > 0 → 0 ≤ a ∧ a ≤ n ∧ 0 ≤ b ∧ b ≤ n) ∧
    (c < 0 → -1 ≤ a ∧ a < n ∧ -1 ≤ b ∧ b < n) := by
  unfold indices at h
  simp only at h
  generalize s.step.getD 1 = st at *
  split at h
  · cases h
  · rename_i h0
    simp only [Option.some.injEq, Prod.mk.injEq] at h
    obtain ⟨rfl, rfl, rfl⟩ := h
    refine ⟨h0, rfl, ?_, ?_⟩
    · intro hp
      have : decide (st < 0) = false := by simp; omega
      cases s.start <;> cases s.stop <;> simp only [this, clip, if_true, if_false, Bool.false_eq_true, reduceCtorEq] <;> refine ⟨?_, ?_, ?_, ?_⟩ <;>
        (repeat' split) <;> omega
    · intro hp
      have : decide (st < 0) = true := by simp; omega
      cases s.start <;> cases s.stop <;> simp only [this, clip, if_true, if_false, Bool.false_eq_true, reduceCtorEq] <;> refine ⟨?_, ?_, ?_, ?_⟩ <;>
        (repeat' split) <;> omega

/-- Every position of a normalised slice is a valid row number. -/
theorem walk_valid (n : Nat) (s : Slice) (a b c : Int) (h : indices n s = some (a, b, c)) (p : Int)
    (hp : p ∈ walk a b c) : 0 ≤ p ∧ p < n := by
  obtain ⟨h0, _, hpos, hneg⟩ := indices_bounds n s a b c h
  obtain ⟨k, hk⟩ := List.mem_iff_getElem?.mp hp
  rcases lt_or_gt_of_ne h0 with hc | hc
  · rw [walk_get_neg a b c hc] at hk
    split at hk
    · simp at hk
      have : (k : Int) * (-c) ≥ 0 := by have : -c > 0 := by omega
                                        positivity
      have := hneg hc
      constructor
      · omega
      · nlinarith
    · cases hk
  · rw [walk_get_pos a b c hc] at hk
    split at hk
    · simp at hk
      have : (k : Int) * c ≥ 0 := by positivity
      have := hpos hc
      constructor <;> omega
    · cases hk

/-- Valid positions lose no row. -/
theorem rowsAt_valid {α : Type} (l : List α) (ps : List Int) (h : ∀ p ∈ ps, 0 ≤ p ∧ p < l.length) :
    (rowsAt l ps).map some = ps.map fun p => l[p.toNat]? := by
  induction ps with
  | nil => rfl
  | cons p ps ih =>
    obtain ⟨h1, h2⟩ := h p (by simp)
    have h3 : ¬ p < 0 := by omega
    have h4 : p.toNat < l.length := by omega
    have := ih (fun q hq => h q (by simp [hq]))
    unfold rowsAt at this ⊢
    rw [List.filterMap_cons]
    simp only [h3, if_false, List.getElem?_eq_getElem h4, List.map_cons]
    rw [this]

theorem rowsAt_length {α : Type} (l : List α) (ps : List Int) (h : ∀ p ∈ ps, 0 ≤ p ∧ p < l.length) :
    (rowsAt l ps).length = ps.length := by
  have := congrArg List.length (rowsAt_valid l ps h)
  simpa using this

end NBK.PySlice

namespace NBK.PySlice

theorem walk_mem_pos (i stop step : Int) (h : step > 0) (p : Int) :
    p ∈ walk i stop step ↔ i ≤ p ∧ p < stop ∧ (p - i) % step = 0 := by
  rw [List.mem_iff_getElem?]
  constructor
  · rintro ⟨k, hk⟩
    rw [walk_get_pos i stop step h] at hk
    split at hk
    · simp at hk
      subst hk
      have : (k : Int) * step ≥ 0 := by positivity
      refine ⟨by omega, by omega, ?_⟩
      rw [show i + (k : Int) * step - i = k * step by ring]
      simp
    · cases hk
  · rintro ⟨h1, h2, h3⟩
    refine ⟨((p - i) / step).toNat, ?_⟩
    have hd : step * ((p - i) / step) = p - i := by
      have := Int.mul_ediv_add_emod (p - i) step
      omega
    have hnn : (p - i) / step ≥ 0 := Int.ediv_nonneg (by omega) (by omega)
    have e : i + (((p - i) / step).toNat : Int) * step = p := by
      rw [Int.toNat_of_nonneg hnn, mul_comm]; omega
    rw [walk_get_pos i stop step h, e]
    simp [h2]

theorem walk_mem_neg (i stop step : Int) (h : step < 0) (p : Int) :
    p ∈ walk i stop step ↔ stop < p ∧ p ≤ i ∧ (i - p) % (-step) = 0 := by
  rw [List.mem_iff_getElem?]
  constructor
  · rintro ⟨k, hk⟩
    rw [walk_get_neg i stop step h] at hk
    split at hk
    · simp at hk
      subst hk
      have : (k : Int) * (-step) ≥ 0 := by have : -step > 0 := by omega
                                           positivity
      refine ⟨by omega, by nlinarith, ?_⟩
      rw [show i - (i + (k : Int) * step) = k * (-step) by ring]
      simp
    · cases hk
  · rintro ⟨h1, h2, h3⟩
    refine ⟨((i - p) / (-step)).toNat, ?_⟩
    have hd : (-step) * ((i - p) / (-step)) = i - p := by
      have := Int.mul_ediv_add_emod (i - p) (-step)
      omega
    have hnn : (i - p) / (-step) ≥ 0 := Int.ediv_nonneg (by omega) (by omega)
    have e : i + (((i - p) / (-step)).toNat : Int) * step = p := by
      rw [Int.toNat_of_nonneg hnn]; nlinarith
    rw [walk_get_neg i stop step h, e]
    simp [h1]

theorem walk_sorted_pos (i stop step : Int) (h : step > 0) : (walk i stop step).Pairwise (· < ·) := by
  rw [List.pairwise_iff_getElem]
  intro a b ha hb hab
  have h1 := walk_get_pos i stop step h a
  have h2 := walk_get_pos i stop step h b
  rw [List.getElem?_eq_getElem ha] at h1
  rw [List.getElem?_eq_getElem hb] at h2
  split at h1 <;> split at h2 <;> simp at h1 h2
  rw [h1, h2]
  have : (a : Int) < b := by omega
  nlinarith

theorem walk_sorted_neg (i stop step : Int) (h : step < 0) : (walk i stop step).Pairwise (· > ·) := by
  rw [List.pairwise_iff_getElem]
  intro a b ha hb hab
  have h1 := walk_get_neg i stop step h a
  have h2 := walk_get_neg i stop step h b
  rw [List.getElem?_eq_getElem ha] at h1
  rw [List.getElem?_eq_getElem hb] at h2
  split at h1 <;> split at h2 <;> simp at h1 h2
  rw [h1, h2]
  have : (a : Int) < b := by omega
  nlinarith

/-- Specification of slicing: the row numbers in ascending order that a normalised slice selects. -/
def selected (a b c : Int) (j : Nat) : Bool :=
  if c > 0 then decide (a ≤ j ∧ (j : Int) < b ∧ ((j : Int) - a) % c = 0)
  else decide (b < j ∧ (j : Int) ≤ a ∧ (a - j) % (-c) = 0)

/-- The rows of `l` whose number satisfies `P`, in order. -/
def rowsWhere {α : Type} (l : List α) (P : Nat → Bool) : List α := (l.zipIdx.filter fun x => P x.2).map (·.1)

theorem rowsWhere_eq {α : Type} (l : List α) (P : Nat → Bool) :
    rowsWhere l P = ((List.range l.length).filter P).filterMap fun j => l[j]? := by
  have h : ∀ (k : Nat), ((l.zipIdx k).filter fun x => P x.2).map (·.1) =
      (((List.range' k l.length).filter P).filterMap fun j => l[j - k]?) := by
    induction l with
    | nil => simp
    | cons x l ih =>
      intro k
      have ih' := ih (k + 1)
      simp only [List.zipIdx_cons, List.length_cons, List.range'_succ]
      have hc : (List.filter P (List.range' (k + 1) l.length)).filterMap (fun j => (x :: l)[j - k]?) =
          (List.filter P (List.range' (k + 1) l.length)).filterMap (fun j => l[j - (k + 1)]?) := by
        apply List.filterMap_congr
        intro j hj
        simp only [List.mem_filter, List.mem_range'_1] at hj
        rw [show j - k = (j - (k + 1)) + 1 by omega]
        rfl
      by_cases hP : P k
      · simp only [List.filter_cons, hP, if_true, List.map_cons, ih', List.filterMap_cons, Nat.sub_self,
          List.getElem?_cons_zero, hc]
      · simp only [List.filter_cons, hP, if_false, ih', hc, Bool.false_eq_true]
  have := h 0
  simp only [Nat.sub_zero] at this
  rw [rowsWhere, this, List.range_eq_range']

/-- The positions of a normalised slice are the selected row numbers, ascending or descending. -/
theorem walk_eq_selected (n : Nat) (s : Slice) (a b c : Int) (h : indices n s = some (a, b, c)) :
    walk a b c = (if c > 0 then (List.range n).filter (selected a b c)
      else ((List.range n).filter (selected a b c)).reverse).map (fun j : Nat => (j : Int)) := by
  obtain ⟨h0, _, hpos, hneg⟩ := indices_bounds n s a b c h
  have hr : (List.range n).Pairwise (· < ·) := List.pairwise_lt_range
  rcases lt_or_gt_of_ne h0 with hc | hc
  · have hnc : ¬ c > 0 := by omega
    simp only [hnc, if_false]
    have hs1 := walk_sorted_neg a b c hc
    have hs2 : ((((List.range n).filter (selected a b c)).reverse).map (fun j : Nat => (j : Int))).Pairwise (· > ·) := by
      rw [List.pairwise_map, List.pairwise_reverse]
      exact (hr.filter _).imp (by intro x y hxy; omega)
    apply List.Perm.eq_of_pairwise _ hs1 hs2
    · rw [List.perm_ext_iff_of_nodup (hs1.imp (by intro x y hxy; omega)) (hs2.imp (by intro x y hxy; omega))]
      intro p
      rw [walk_mem_neg a b c hc]
      simp only [List.mem_map, List.mem_reverse, List.mem_filter, List.mem_range, selected, hnc, if_false,
        decide_eq_true_eq]
      have := hneg hc
      constructor
      · rintro ⟨h1, h2, h3⟩
        refine ⟨p.toNat, ⟨by omega, ?_, ?_, ?_⟩, by omega⟩
        · omega
        · omega
        · rw [Int.toNat_of_nonneg (by omega)]; exact h3
      · rintro ⟨j, ⟨h1, h2, h3, h4⟩, rfl⟩
        exact ⟨h2, h3, h4⟩
    · intros; omega
  · simp only [hc, if_true]
    have hs1 := walk_sorted_pos a b c hc
    have hs2 : (((List.range n).filter (selected a b c)).map (fun j : Nat => (j : Int))).Pairwise (· < ·) := by
      rw [List.pairwise_map]
      exact (hr.filter _).imp (by intro x y hxy; omega)
    apply List.Perm.eq_of_pairwise _ hs1 hs2
    · rw [List.perm_ext_iff_of_nodup (hs1.imp (by intro x y hxy; omega)) (hs2.imp (by intro x y hxy; omega))]
      intro p
      rw [walk_mem_pos a b c hc]
      simp only [List.mem_map, List.mem_filter, List.mem_range, selected, hc, if_true, decide_eq_true_eq]
      have := hpos hc
      constructor
      · rintro ⟨h1, h2, h3⟩
        refine ⟨p.toNat, ⟨by omega, ?_, ?_, ?_⟩, by omega⟩
        · omega
        · omega
        · rw [Int.toNat_of_nonneg (by omega)]; exact h3
      · rintro ⟨j, ⟨h1, h2, h3, h4⟩, rfl⟩
        exact ⟨h2, h3, h4⟩
    · intros; omega

theorem rowsAt_nat {α : Type} (l : List α) (js : List Nat) :
    rowsAt l (js.map (fun j : Nat => (j : Int))) = js.filterMap fun j => l[j]? := by
  unfold rowsAt
  rw [List.filterMap_map]
  apply List.filterMap_congr
  intro j _
  simp

/-- Slicing selects the rows whose number is selected, in ascending (descending for a negative step) order. -/
theorem pySlice_eq {α : Type} (l : List α) (s : Slice) (a b c : Int) (h : indices l.length s = some (a, b, c)) :
    pySlice l s = some (if c > 0 then rowsWhere l (selected a b c) else (rowsWhere l (selected a b c)).reverse) := by
  unfold pySlice
  rw [h]
  simp only [Option.map_some, walk_eq_selected _ _ _ _ _ h]
  rw [rowsAt_nat, rowsWhere_eq]
  split
  · rfl
  · rw [List.filterMap_reverse]

end NBK.PySlice

namespace NBK.PySlice

/-- `l[a:b]` for natural numbers. -/
theorem pySlice_nat {α : Type} (l : List α) (a b : Nat) :
    pySlice l ⟨some a, some b, none⟩ = some ((l.take b).drop a) := by
  obtain ⟨x, y, c, h⟩ : ∃ x y c, indices l.length ⟨some a, some b, none⟩ = some (x, y, c) := by simp [indices]
  have hx : x = min a l.length ∧ y = min b l.length ∧ c = 1 := by
    simp only [indices, Option.getD_none, clip] at h
    simp at h
    obtain ⟨h1, h2, h3⟩ := h
    have h4 : ¬ ((a : Int) < 0) := by omega
    have h5 : ¬ ((b : Int) < 0) := by omega
    simp only [h4, h5, if_false, Nat.cast_le] at h1 h2
    refine ⟨?_, ?_, h3.symm⟩
    · split at h1 <;> omega
    · split at h2 <;> omega
  obtain ⟨hx, hy, rfl⟩ := hx
  unfold pySlice
  rw [h]
  simp only [Option.map_some, Option.some.injEq]
  apply List.map_injective_iff.mpr (Option.some_injective α)
  rw [rowsAt_valid _ _ (fun p hp => walk_valid _ _ _ _ _ h p hp)]
  apply List.ext_getElem?
  intro k
  rw [List.getElem?_map, List.getElem?_map, walk_get_pos _ _ _ (by omega), List.getElem?_drop, List.getElem?_take]
  by_cases hk : a + k < b ∧ a + k < l.length
  · have h1 : x + (k : Int) * 1 < y := by omega
    simp only [h1, if_true, Option.map_some, hk.1]
    have : (x + (k : Int) * 1).toNat = a + k := by omega
    rw [this, List.getElem?_eq_getElem hk.2]
    rfl
  · have h1 : ¬ x + (k : Int) * 1 < y := by omega
    simp only [h1, if_false, Option.map_none]
    by_cases hb : a + k < b
    · have : l[a + k]? = none := by rw [List.getElem?_eq_none_iff]; omega
      simp [hb, this]
    · simp [hb]

end NBK.PySlice
