import Verif.Slabs.Model
import Mathlib.Tactic.Linarith
import Mathlib.Tactic.Ring
import Mathlib.Tactic.IntervalCases
import Mathlib.Tactic.SplitIfs
import Mathlib.Data.List.GetD
import Mathlib.Data.List.InsertIdx
import Mathlib.Algebra.BigOperators.Group.Finset.Basic
import Mathlib.Algebra.BigOperators.Fin
import Mathlib.Algebra.Order.BigOperators.Ring.Finset

set_option linter.unusedSimpArgs false

/-! C96: slabs of a mesh. -/
noncomputable section
namespace NBK.Slabs

/-- The coordinate along dimension `i` at index `j`. -/
def X (coords : List (Arr ℝ)) (i j : Nat) : ℝ :=
  (coords.getD i ⟨[], fun _ => 0⟩).data ((List.replicate coords.length 0).set i j)

/-- The size of the mesh along dimension `i`. -/
def size (coords : List (Arr ℝ)) (i : Nat) : Nat := (coords.getD i ⟨[], fun _ => 0⟩).shape.getD i 0

/-- A negative axis counts from the end. -/
def norm (ndim : Nat) (axis : Int) : Int := if axis < 0 then axis + ndim else axis

/-- What is known when the iteration starts: two or three dimensions, coordinate arrays, a valid axis. -/
theorem iterator_ok (coords : List (Arr ℝ)) (axis : Int) (sym : Option Int) (slabs : List Slab)
    (h : slabIterator coords axis sym = .ok slabs) :
    ((∃ f g p q, coords = [⟨[p, 1], f⟩, ⟨[1, q], g⟩]) ∨
      (∃ f g e p q r, coords = [⟨[p, 1, 1], f⟩, ⟨[1, q, 1], g⟩, ⟨[1, 1, r], e⟩])) ∧
    ∃ ax : Nat, ax < coords.length ∧ norm coords.length axis = ax ∧
      slabs = (List.range (size coords ax)).map fun i => ⟨i, coords, ax, sym.map (norm coords.length)⟩ := by
  unfold slabIterator at h
  simp only at h
  split at h
  · cases h
  rename_i hnd
  generalize hg : (if axis < 0 then axis + (coords.length : Int) else axis) = ax at h
  split at h
  · cases h
  rename_i hax
  split at h
  · cases h
  rename_i hb
  split at h
  · cases h
  rename_i hsym
  simp only [Except.ok.injEq] at h
  have hax' : 0 ≤ ax ∧ ax < coords.length := by by_contra hc; exact hax hc
  have shapes : ∀ i a, coords[i]? = some a → a.shape = (List.replicate coords.length 1).set i (a.shape.getD i 0) := by
    intro i a ha
    by_contra hc
    apply hb
    unfold badShape
    refine List.any_eq_true.mpr ⟨i, List.mem_range.mpr ?_, ?_⟩
    · exact (List.getElem?_eq_some_iff.mp ha).1
    · rw [ha]
      simp only [Option.any_some, Bool.not_eq_true', Bool.and_eq_false_iff, decide_eq_false_iff_not]
      exact .inl hc
  refine ⟨?_, ax.toNat, by omega, by unfold norm; rw [hg]; omega, ?_⟩
  · have hl : coords.length = 2 ∨ coords.length = 3 := by omega
    rcases hl with hl | hl
    · left
      match coords, hl, shapes with
      | [⟨s0, f⟩, ⟨s1, g⟩], _, shapes =>
        have h0 := shapes 0 ⟨s0, f⟩ rfl
        have h1 := shapes 1 ⟨s1, g⟩ rfl
        simp only [List.length_cons, List.length_nil, List.replicate, List.set] at h0 h1
        exact ⟨f, g, s0.getD 0 0, s1.getD 1 0, by rw [← h0, ← h1]⟩
    · right
      match coords, hl, shapes with
      | [⟨s0, f⟩, ⟨s1, g⟩, ⟨s2, e⟩], _, shapes =>
        have h0 := shapes 0 ⟨s0, f⟩ rfl
        have h1 := shapes 1 ⟨s1, g⟩ rfl
        have h2 := shapes 2 ⟨s2, e⟩ rfl
        simp only [List.length_cons, List.length_nil, List.replicate, List.set] at h0 h1 h2
        exact ⟨f, g, e, s0.getD 0 0, s1.getD 1 0, s2.getD 2 0, by rw [← h0, ← h1, ← h2]⟩
  · rw [← h]; rfl

theorem sel (n j : Nat) (h : j < n) : (if n = 1 then 0 else j) = j := by split <;> omega

/-- The indices of a point of a slab. -/
def Inside (s : Slab) (idx : List Nat) : Prop :=
  idx.length = s.shape.length ∧ ∀ j, j < idx.length → idx.getD j 0 < s.shape.getD j 0

/-- The cell of the mesh with given indices in slab `k` along `ax`. -/
def cell (ax k : Nat) (idx : List Nat) (i : Nat) : Nat := (idx.insertIdx ax k).getD i 0

/-- The values at the points of a slab. -/
theorem slab_values (coords : List (Arr ℝ))
    (hc : (∃ f g p q, coords = [⟨[p, 1], f⟩, ⟨[1, q], g⟩]) ∨
      (∃ f g e p q r, coords = [⟨[p, 1, 1], f⟩, ⟨[1, q, 1], g⟩, ⟨[1, 1, r], e⟩])) (ax k : Nat) (sym : Option Int)
    (hax : ax < coords.length) (hk : k < size coords ax) :
    (Slab.mk k coords ax sym).shape = ((List.range coords.length).map (size coords)).eraseIdx ax ∧
    (Slab.mk k coords ax sym).norm2.shape = (Slab.mk k coords ax sym).shape ∧
    (∀ los, ((Slab.mk k coords ax sym).mu los).shape = (Slab.mk k coords ax sym).shape) ∧
    ∀ idx, Inside (Slab.mk k coords ax sym) idx →
      (Slab.mk k coords ax sym).norm2.data idx = ∑ i ∈ Finset.range coords.length, X coords i (cell ax k idx i) ^ 2 ∧
      ∀ los, ((Slab.mk k coords ax sym).mu los).data idx =
        if Real.sqrt (∑ i ∈ Finset.range coords.length, X coords i (cell ax k idx i) ^ 2) = 0 then 0 else
          (∑ i ∈ Finset.range coords.length, X coords i (cell ax k idx i) * los i) /
            Real.sqrt (∑ i ∈ Finset.range coords.length, X coords i (cell ax k idx i) ^ 2) := by
  rcases hc with ⟨f, g, p, q, rfl⟩ | ⟨f, g, e, p, q, r, rfl⟩
  · simp only [List.length_cons, List.length_nil] at hax
    interval_cases ax
    all_goals
      refine ⟨by simp [Slab.shape, Slab.meshshape, size, List.range_succ], ?_, ?_, ?_⟩
      · simp [Slab.norm2, Slab.shape, Slab.meshshape, Slab.coord, sumArr, bcast, mapA, take, List.range_succ] <;>
          (try refine ⟨?_, ?_⟩) <;> (try split_ifs) <;> omega
      · intro los
        simp [Slab.mu, Slab.norm2, Slab.shape, Slab.meshshape, Slab.coord, sumArr, bcast, mapA, take, List.range_succ] <;>
          (try refine ⟨?_, ?_⟩) <;> (try split_ifs) <;> omega
      · rintro idx ⟨h1, h2⟩
        match idx, h1, h2 with
        | [a], _, h2 =>
          have := h2 0 (by simp)
          simp [Slab.shape, Slab.meshshape] at this
          have h := sel _ _ this
          constructor
          · simp [Slab.norm2, Slab.coord, sumArr, bcast, mapA, take, clip, X, cell, h, List.range_succ, Finset.sum_range_succ]
          · intro los
            simp [Slab.mu, Slab.norm2, Slab.coord, sumArr, bcast, mapA, take, clip, X, cell, h, List.range_succ, Finset.sum_range_succ]
  · simp only [List.length_cons, List.length_nil] at hax
    interval_cases ax
    all_goals
      refine ⟨by simp [Slab.shape, Slab.meshshape, size, List.range_succ], ?_, ?_, ?_⟩
      · simp [Slab.norm2, Slab.shape, Slab.meshshape, Slab.coord, sumArr, bcast, mapA, take, List.range_succ] <;>
          (try refine ⟨?_, ?_⟩) <;> (try split_ifs) <;> omega
      · intro los
        simp [Slab.mu, Slab.norm2, Slab.shape, Slab.meshshape, Slab.coord, sumArr, bcast, mapA, take, List.range_succ] <;>
          (try refine ⟨?_, ?_⟩) <;> (try split_ifs) <;> omega
      · rintro idx ⟨h1, h2⟩
        match idx, h1, h2 with
        | [a, b], _, h2 =>
          have ha := h2 0 (by simp)
          have hb := h2 1 (by simp)
          simp [Slab.shape, Slab.meshshape] at ha hb
          have ha := sel _ _ ha
          have hb := sel _ _ hb
          constructor
          · simp [Slab.norm2, Slab.coord, sumArr, bcast, mapA, take, clip, X, cell, ha, hb, List.range_succ, Finset.sum_range_succ]
          · intro los
            simp [Slab.mu, Slab.norm2, Slab.coord, sumArr, bcast, mapA, take, clip, X, cell, ha, hb, List.range_succ, Finset.sum_range_succ]

open Classical in
/-- The weights at the points of a slab. -/
theorem slab_weights (coords : List (Arr ℝ))
    (hc : (∃ f g p q, coords = [⟨[p, 1], f⟩, ⟨[1, q], g⟩]) ∨
      (∃ f g e p q r, coords = [⟨[p, 1, 1], f⟩, ⟨[1, q, 1], g⟩, ⟨[1, 1, r], e⟩])) (ax k t : Nat)
    (hax : ax < coords.length) (hk : k < size coords ax) (ht : t < coords.length) (idx : List Nat)
    (hi : Inside (Slab.mk k coords ax (some (t : Int))) idx) :
    (Slab.mk k coords ax (some (t : Int))).weights.data idx = if 0 < X coords t (cell ax k idx t) then 2 else 1 := by
  obtain ⟨h1, h2⟩ := hi
  rcases hc with ⟨f, g, p, q, rfl⟩ | ⟨f, g, e, p, q, r, rfl⟩
  · simp only [List.length_cons, List.length_nil] at hax ht
    interval_cases ax <;> interval_cases t
    all_goals
      match idx, h1, h2 with
      | [a], _, h2 =>
        have := h2 0 (by simp)
        simp [Slab.shape, Slab.meshshape] at this
        have h := sel _ _ this
        simp [Slab.weights, Slab.nonsingular, Slab.coord, mapA, take, clip, X, cell, h]
  · simp only [List.length_cons, List.length_nil] at hax ht
    interval_cases ax <;> interval_cases t
    all_goals
      match idx, h1, h2 with
      | [a, b], _, h2 =>
        have ha := h2 0 (by simp)
        have hb := h2 1 (by simp)
        simp [Slab.shape, Slab.meshshape] at ha hb
        have ha := sel _ _ ha
        have hb := sel _ _ hb
        simp [Slab.weights, Slab.nonsingular, Slab.coord, mapA, take, clip, X, cell, ha, hb]

/-- The nonsingular points of a slab are those of the cells with a positive coordinate along the symmetry axis. -/
theorem nonsingular_spec (coords : List (Arr ℝ))
    (hc : (∃ f g p q, coords = [⟨[p, 1], f⟩, ⟨[1, q], g⟩]) ∨
      (∃ f g e p q r, coords = [⟨[p, 1, 1], f⟩, ⟨[1, q, 1], g⟩, ⟨[1, 1, r], e⟩])) (ax k t : Nat)
    (hax : ax < coords.length) (ht : t < coords.length) (idx : List Nat)
    (hi : Inside (Slab.mk k coords ax (some (t : Int))) idx) :
    ((Slab.mk k coords ax (some (t : Int))).nonsingular t).data idx = true ↔ 0 < X coords t (cell ax k idx t) := by
  obtain ⟨h1, h2⟩ := hi
  rcases hc with ⟨f, g, p, q, rfl⟩ | ⟨f, g, e, p, q, r, rfl⟩
  · simp only [List.length_cons, List.length_nil] at hax ht
    interval_cases ax <;> interval_cases t
    all_goals
      match idx, h1, h2 with
      | [a], _, h2 =>
        have := h2 0 (by simp)
        simp [Slab.shape, Slab.meshshape] at this
        have h := sel _ _ this
        simp [Slab.nonsingular, Slab.coord, mapA, take, clip, X, cell, h]
  · simp only [List.length_cons, List.length_nil] at hax ht
    interval_cases ax <;> interval_cases t
    all_goals
      match idx, h1, h2 with
      | [a, b], _, h2 =>
        have ha := h2 0 (by simp)
        have hb := h2 1 (by simp)
        simp [Slab.shape, Slab.meshshape] at ha hb
        have ha := sel _ _ ha
        have hb := sel _ _ hb
        simp [Slab.nonsingular, Slab.coord, mapA, take, clip, X, cell, ha, hb]

open Classical in
/-- C96: slab `k` along the axis has, at every point, the squared norm, the cosine and the weight of the cell of the mesh with the
index `k` along the axis and the indices of the point along the others. A negative axis counts from the end. -/
theorem slabs_spec (coords : List (Arr ℝ)) (axis : Int) (sym : Option Int) (slabs : List Slab)
    (h : slabIterator coords axis sym = .ok slabs) :
    ∃ ax : Nat, ax < coords.length ∧ norm coords.length axis = ax ∧ slabs.length = size coords ax ∧
      ∀ k s, slabs[k]? = some s →
        s.shape = ((List.range coords.length).map (size coords)).eraseIdx ax ∧ s.norm2.shape = s.shape ∧
        (∀ los, (s.mu los).shape = s.shape) ∧
        ∀ idx, Inside s idx →
          s.norm2.data idx = ∑ i ∈ Finset.range coords.length, X coords i (cell ax k idx i) ^ 2 ∧
          (∀ los, (s.mu los).data idx * Real.sqrt (s.norm2.data idx) =
            ∑ i ∈ Finset.range coords.length, X coords i (cell ax k idx i) * los i) ∧
          (∀ los, s.norm2.data idx = 0 → (s.mu los).data idx = 0) ∧
          (sym = none → s.weights.data idx = 1) ∧
          ∀ t : Nat, t < coords.length → sym.map (norm coords.length) = some (t : Int) →
            s.weights.data idx = if 0 < X coords t (cell ax k idx t) then 2 else 1 := by
  obtain ⟨hc, ax, hax, hn, rfl⟩ := iterator_ok coords axis sym slabs h
  refine ⟨ax, hax, hn, by simp, ?_⟩
  intro k s hk
  rw [List.getElem?_map] at hk
  have hkk : k < size coords ax := by
    by_contra hc
    rw [List.getElem?_eq_none (by simpa using hc)] at hk
    cases hk
  rw [List.getElem?_range hkk] at hk
  simp only [Option.map_some, Option.some.injEq] at hk
  subst hk
  obtain ⟨h1, h2, h3, h4⟩ := slab_values coords hc ax k (sym.map (norm coords.length)) hax hkk
  refine ⟨h1, h2, h3, ?_⟩
  intro idx hi
  obtain ⟨h5, h6⟩ := h4 idx hi
  refine ⟨h5, ?_, ?_, ?_, ?_⟩
  · intro los
    rw [h6, h5]
    split
    · rename_i h0
      rw [h0, mul_zero]
      have hnn : 0 ≤ ∑ i ∈ Finset.range coords.length, X coords i (cell ax k idx i) ^ 2 := Finset.sum_nonneg fun i _ => sq_nonneg _
      have hz := (Real.sqrt_eq_zero hnn).mp h0
      have := (Finset.sum_eq_zero_iff_of_nonneg fun i _ => sq_nonneg (X coords i (cell ax k idx i))).mp hz
      exact (Finset.sum_eq_zero fun i hi => by rw [pow_eq_zero_iff (two_ne_zero) |>.mp (this i hi), zero_mul]).symm
    · rename_i h0
      rw [div_mul_cancel₀ _ h0]
  · intro los h0
    rw [h6, ← h5, h0]; simp
  · rintro rfl
    rfl
  · intro t ht hs
    rw [hs] at hi ⊢
    exact slab_weights coords hc ax k t hax hkk ht idx hi

/-- C96: the cosine lies in [-1, 1] for a line of sight of norm 1. -/
theorem mu_range (coords : List (Arr ℝ)) (axis : Int) (sym : Option Int) (slabs : List Slab)
    (h : slabIterator coords axis sym = .ok slabs) (s : Slab) (hs : s ∈ slabs) (idx : List Nat) (hi : Inside s idx) (los : Nat → ℝ)
    (hl : ∑ i ∈ Finset.range coords.length, los i ^ 2 = 1) : |(s.mu los).data idx| ≤ 1 := by
  obtain ⟨ax, _, _, _, hsl⟩ := slabs_spec coords axis sym slabs h
  obtain ⟨k, hk⟩ := List.getElem?_of_mem hs
  obtain ⟨_, _, _, hv⟩ := hsl k s hk
  obtain ⟨h1, h2, h3, _⟩ := hv idx hi
  by_cases h0 : s.norm2.data idx = 0
  · rw [h3 los h0]; simp
  have hnn : 0 ≤ s.norm2.data idx := by rw [h1]; exact Finset.sum_nonneg fun i _ => sq_nonneg _
  have hpos : 0 < s.norm2.data idx := lt_of_le_of_ne hnn (Ne.symm h0)
  have cs := Finset.sum_mul_sq_le_sq_mul_sq (Finset.range coords.length) (fun i => X coords i (cell ax k idx i)) los
  rw [← h2 los, hl, ← h1, mul_one, mul_pow, Real.sq_sqrt hnn] at cs
  have : ((s.mu los).data idx) ^ 2 ≤ 1 := by
    by_contra hc
    have := mul_lt_mul_of_pos_right (not_le.mp hc) hpos
    linarith
  exact (sq_le_one_iff_abs_le_one _).mp this

/-- C96: every cell of the mesh is a point of exactly one slab. -/
theorem cells_once (coords : List (Arr ℝ)) (axis : Int) (sym : Option Int) (slabs : List Slab)
    (h : slabIterator coords axis sym = .ok slabs) (full : List Nat) (hf : full.length = coords.length)
    (hin : ∀ i, i < coords.length → full.getD i 0 < size coords i) :
    ∃ ax : Nat, norm coords.length axis = ax ∧
      ∃! p : Nat × List Nat, (∃ s, slabs[p.1]? = some s ∧ Inside s p.2) ∧ p.2.insertIdx ax p.1 = full := by
  obtain ⟨ax, hax, hn, hlen, hsl⟩ := slabs_spec coords axis sym slabs h
  have hfull : (full.eraseIdx ax).insertIdx ax (full.getD ax 0) = full := by
    rw [List.getD_eq_getElem _ _ (by omega)]
    exact List.insertIdx_eraseIdx_getElem (by omega)
  refine ⟨ax, hn, (full.getD ax 0, full.eraseIdx ax), ⟨?_, hfull⟩, ?_⟩
  · have hk : full.getD ax 0 < slabs.length := by rw [hlen]; exact hin ax hax
    refine ⟨slabs[full.getD ax 0], List.getElem?_eq_getElem hk, ?_⟩
    obtain ⟨hs, _⟩ := hsl _ _ (List.getElem?_eq_getElem hk)
    constructor
    · rw [hs, List.length_eraseIdx, List.length_eraseIdx, if_pos (by omega), if_pos (by simpa using hax)]
      simp [hf]
    · intro j hj
      rw [hs]
      have hle : (full.eraseIdx ax).length = full.length - 1 := by rw [List.length_eraseIdx, if_pos (by omega)]
      have hj' : j < full.length - 1 := by simpa [hle] using hj
      have hM : j < (((List.range coords.length).map (size coords)).eraseIdx ax).length := by
        rw [List.length_eraseIdx, if_pos (by simpa using hax)]
        simp; omega
      rw [List.getD_eq_getElem _ _ hj, List.getD_eq_getElem _ _ hM]
      rw [List.getElem_eraseIdx, List.getElem_eraseIdx]
      split
      · have := hin j (by omega)
        rw [List.getD_eq_getElem _ _ (by omega)] at this
        simpa using this
      · have := hin (j + 1) (by omega)
        rw [List.getD_eq_getElem _ _ (by omega)] at this
        simpa using this
  · rintro ⟨k, idx⟩ ⟨⟨s, hs, hi⟩, he⟩
    simp only at hs hi he ⊢
    obtain ⟨hsh, _⟩ := hsl k s hs
    have hle : ax ≤ idx.length := by
      rw [hi.1, hsh, List.length_eraseIdx, if_pos (by simpa using hax)]
      simp; omega
    have h1 : idx = full.eraseIdx ax := by rw [← he, List.eraseIdx_insertIdx_self]
    have h2 : k = full.getD ax 0 := by
      have hl : ax < (idx.insertIdx ax k).length := by rw [List.length_insertIdx_of_le_length hle]; omega
      rw [← he, List.getD_eq_getElem _ _ hl, List.getElem_insertIdx_self]
    rw [h1, h2]

/-- C96: more or fewer than two or three dimensions, an axis that does not exist and wrong shapes are errors. -/
theorem iterator_errors (coords : List (Arr ℝ)) (axis : Int) (sym : Option Int) :
    (coords.length ≠ 2 → coords.length ≠ 3 → slabIterator coords axis sym = .error .notImplementedError) ∧
    (coords.length = 2 ∨ coords.length = 3 → (axis < -(coords.length : Int) ∨ (coords.length : Int) ≤ axis) →
      slabIterator coords axis sym = .error .assertionError) ∧
    (coords.length = 2 ∨ coords.length = 3 → -(coords.length : Int) ≤ axis → axis < coords.length →
      (∃ i a, coords[i]? = some a ∧ ∀ n, a.shape ≠ (List.replicate coords.length 1).set i n) →
      slabIterator coords axis sym = .error .valueError) := by
  refine ⟨?_, ?_, ?_⟩
  · intro h1 h2
    unfold slabIterator
    simp only
    rw [if_pos ⟨h1, h2⟩]
  · intro h1 h2
    unfold slabIterator
    simp only
    rw [if_neg (by omega), if_pos]
    split <;> omega
  · rintro h1 h2 h3 ⟨i, a, ha, hs⟩
    unfold slabIterator
    simp only
    rw [if_neg (by omega), if_neg (by split <;> omega), if_pos]
    unfold badShape
    refine List.any_eq_true.mpr ⟨i, List.mem_range.mpr (List.getElem?_eq_some_iff.mp ha).1, ?_⟩
    rw [ha]
    simp only [Option.any_some, Bool.not_eq_true', Bool.and_eq_false_iff, decide_eq_false_iff_not]
    exact .inl (hs _)

/-- C96: in two or three dimensions, with coordinate arrays and axes that exist, there is no error. -/
theorem iterator_total (coords : List (Arr ℝ)) (axis : Int) (sym : Option Int) (hn : coords.length = 2 ∨ coords.length = 3)
    (h1 : -(coords.length : Int) ≤ axis) (h2 : axis < coords.length) (hs : ∀ s, sym = some s → -(coords.length : Int) ≤ s)
    (hsh : ∀ i a, coords[i]? = some a → ∃ n, a.shape = (List.replicate coords.length 1).set i n) :
    ∃ slabs, slabIterator coords axis sym = .ok slabs := by
  have hb : badShape coords = false := by
    unfold badShape
    rw [List.any_eq_false]
    intro i hi
    have hi := List.mem_range.1 hi
    have ha : coords[i]? = some coords[i] := List.getElem?_eq_getElem hi
    obtain ⟨n, hn⟩ := hsh i _ ha
    rw [ha]
    have hl : i < ((List.replicate coords.length 1).set i n).length := by simpa using hi
    simp only [Option.any_some, hn]
    rw [List.getD_eq_getElem _ _ hl]
    simp [hi]
  have hsym : (sym.map fun s => if s < 0 then s + (coords.length : Int) else s).any (fun s => decide (s < 0)) = false := by
    cases sym with
    | none => rfl
    | some s =>
      have := hs s rfl
      simp only [Option.map_some, Option.any_some, decide_eq_false_iff_not, not_lt]
      split <;> omega
  unfold slabIterator
  simp only
  rw [if_neg (by omega), if_neg (by split <;> omega), hb, hsym]
  exact ⟨_, rfl⟩

/-- The theorems are not empty: a mesh of 2 x 1 x 3 cells, along the last axis. -/
theorem example_slabs : ∃ slabs, slabIterator [⟨[2, 1, 1], fun l => l.getD 0 0⟩, ⟨[1, 1, 1], fun l => l.getD 1 0⟩,
    ⟨[1, 1, 3], fun l => l.getD 2 0⟩] (-1) (some (-1)) = .ok slabs ∧ slabs.length = 3 ∧
    ∀ s, slabs[2]? = some s → Inside s [1, 0] ∧ s.norm2.data [1, 0] = 5 ∧ s.weights.data [1, 0] = 2 := by
  refine ⟨_, rfl, rfl, ?_⟩
  intro s hs
  have : s = ⟨2, [⟨[2, 1, 1], fun l => l.getD 0 0⟩, ⟨[1, 1, 1], fun l => l.getD 1 0⟩, ⟨[1, 1, 3], fun l => l.getD 2 0⟩], 2, some 2⟩ := by
    have := (Option.some.inj hs).symm
    exact this
  subst this
  refine ⟨⟨rfl, ?_⟩, ?_, ?_⟩
  · intro j hj
    have : j < 2 := hj
    interval_cases j <;> decide
  · norm_num [Slab.norm2, Slab.coord, sumArr, bcast, mapA, take, clip, List.range_succ]
  · clear hs
    have h2 : (2 : Int).toNat = 2 := rfl
    simp [Slab.weights, Slab.coord, take, h2]

/-- C96 fails for a symmetry axis that does not exist: negative values are an error, too large ones are not. -/
theorem symmetry_axis_unchecked : ∃ slabs, slabIterator [⟨[2, 1], fun _ => 0⟩, ⟨[1, 1], fun _ => 0⟩] 0 (some 7) = .ok slabs ∧
    slabIterator [⟨[2, 1], fun _ => 0⟩, ⟨[1, 1], fun _ => 0⟩] 0 (some (-7)) = .error .valueError :=
  ⟨_, rfl, rfl⟩

end NBK.Slabs
