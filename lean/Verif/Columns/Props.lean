import Verif.Columns.Model
import Mathlib.Tactic.Linarith
import Mathlib.Tactic.Ring
import Mathlib.Tactic.FieldSimp
import Mathlib.Tactic.Positivity
import Mathlib.Algebra.Order.BigOperators.Ring.Finset
import Mathlib.Algebra.BigOperators.Field

set_option linter.unusedSimpArgs false

/-! C94: columns made by `StackColumns` and `VectorProjection`. -/
namespace NBK.Columns
variable {α : Type}

/-! ### Stacked columns -/

theorem fold_common (n : Nat) (cols : List (List α)) : ∀ m, (m = n ∨ m = 1) → (∀ c ∈ cols, c.length = n ∨ c.length = 1) →
    (m = n ∨ ∃ c ∈ cols, c.length = n) →
    cols.foldlM (fun n c => if c.length = n then .ok n else if n = 1 then .ok c.length else if c.length = 1 then .ok n
      else .error .valueError) m = (.ok n : Except Err Nat) := by
  induction cols with
  | nil =>
    intro m _ _ h
    have : m = n := by simpa using h
    rw [this]; rfl
  | cons c cols ih =>
    intro m hm hc hex
    rw [List.foldlM_cons]
    have hrest : ∀ c ∈ cols, c.length = n ∨ c.length = 1 := fun c h => hc c (by simp [h])
    by_cases h1 : c.length = m
    · rw [if_pos h1]
      refine ih m hm hrest ?_
      rcases hex with h | ⟨c', hc', h⟩
      · exact .inl h
      · rcases List.mem_cons.mp hc' with rfl | hc'
        · exact .inl (h1.symm.trans h)
        · exact .inr ⟨c', hc', h⟩
    · rw [if_neg h1]
      by_cases h2 : m = 1
      · rw [if_pos h2]
        have : c.length = n := (hc c (by simp)).resolve_right fun h => h1 (h.trans h2.symm)
        exact ih _ (.inl this) hrest (.inl this)
      · rw [if_neg h2]
        have hmn : m = n := hm.resolve_right h2
        have : c.length = 1 := (hc c (by simp)).resolve_left fun h => h1 (h.trans hmn.symm)
        rw [if_pos this]
        exact ih m hm hrest (.inl hmn)

/-- The item number `i` of a column, or its only item. -/
def item (c : List α) (i : Nat) : Option α := if c.length = 1 then c[0]? else c[i]?

theorem stretch_get (n : Nat) (c : List α) (i : Nat) (hi : i < n) (hc : c.length = n ∨ c.length = 1) :
    (stretch n c)[i]? = item c i ∧ (item c i).isSome := by
  unfold stretch item
  by_cases h1 : c.length = n
  · rw [if_pos h1]
    by_cases h2 : c.length = 1
    · have : i = 0 := by omega
      rw [if_pos h2, this]
      exact ⟨rfl, by rw [List.getElem?_eq_getElem (by omega)]; rfl⟩
    · rw [if_neg h2]
      exact ⟨rfl, by rw [List.getElem?_eq_getElem (by omega)]; rfl⟩
  · have h2 : c.length = 1 := hc.resolve_left h1
    rw [if_neg h1, if_pos h2]
    obtain ⟨x, rfl⟩ := List.length_eq_one_iff.mp h2
    have : (List.replicate n [x]).flatten = List.replicate n x := by
      clear hi hc h1 h2
      induction n with
      | zero => rfl
      | succ n ih => rw [List.replicate_succ, List.flatten_cons, ih]; rfl
    rw [this]
    simp [List.getElem?_replicate, hi]

/-- C94: columns of `n` items, or of one item that stands for all rows, are stacked to `n` rows. Row `i` has one item for each
column, in the order of the columns: item `i` of the column. -/
theorem stack_spec (n : Nat) (cols : List (List α)) (hc : ∀ c ∈ cols, c.length = n ∨ c.length = 1)
    (hn : ∃ c ∈ cols, c.length = n) :
    ∃ rows, stackColumns cols = .ok rows ∧ rows.length = n ∧
      ∀ i, i < n → ∃ row, rows[i]? = some row ∧ row.map some = cols.map fun c => item c i := by
  have h := fold_common n cols 1 (.inr rfl) hc (.inr hn)
  refine ⟨transpose n (cols.map (stretch n)), ?_, ?_, ?_⟩
  · unfold stackColumns commonLen
    rw [h]; rfl
  · simp [transpose]
  · intro i hi
    refine ⟨(cols.map (stretch n)).filterMap fun r => r[i]?, by
      simp [transpose, List.getElem?_map, List.getElem?_range hi], ?_⟩
    clear h hn
    induction cols with
    | nil => rfl
    | cons c cols ih =>
      obtain ⟨h1, h2⟩ := stretch_get n c i hi (hc c (by simp))
      obtain ⟨x, hx⟩ := Option.isSome_iff_exists.mp h2
      have := ih fun c h => hc c (by simp [h])
      rw [List.map_cons, List.filterMap_cons, h1, hx]
      simp only [List.map_cons, hx, this]

/-- C94: columns of different lengths, none of one item, are a ValueError. -/
theorem stack_error (a b : List α) (ha : a.length ≠ 1) (hb : b.length ≠ 1) (h : a.length ≠ b.length) :
    stackColumns [a, b] = .error .valueError := by
  unfold stackColumns commonLen
  simp only [List.foldlM_cons, List.foldlM_nil, if_neg ha, if_true]
  simp only [bind, Except.bind, if_neg h.symm, if_neg ha, if_neg hb]

/-- The theorem is not empty: two columns and a constant. -/
theorem example_stack : (stackColumns [[1, 2, 3], [7], [4, 5, 6]]).toOption = some [[1, 7, 4], [2, 7, 5], [3, 7, 6]] := by
  decide +kernel

/-! ### Projections -/

noncomputable section
variable {D : Nat}

theorem sum_sq_pos (d : Fin D → ℝ) (h : d ≠ 0) : 0 < ∑ j, d j ^ 2 := by
  obtain ⟨i, hi⟩ := Function.ne_iff.mp h
  have : 0 < d i ^ 2 := by have : d i ≠ 0 := hi; positivity
  exact Finset.sum_pos' (fun j _ => sq_nonneg _) ⟨i, Finset.mem_univ i, this⟩

theorem unit_sq (d : Fin D → ℝ) (h : d ≠ 0) : ∑ j, unit d j ^ 2 = 1 := by
  have hp := sum_sq_pos d h
  unfold unit
  simp only [div_pow, Real.sq_sqrt hp.le]
  rw [← Finset.sum_div, div_self hp.ne']

/-- C94: the projection lies along the direction, and the rest is orthogonal to it, for every array of vectors and every
direction, normalised or not. This determines the projection. -/
theorem projection_spec (vectors : List (Fin D → ℝ)) (d : Fin D → ℝ) (h : d ≠ 0) :
    (vectorProjection vectors d).length = vectors.length ∧
    ∀ (i : Nat) (v p : Fin D → ℝ), vectors[i]? = some v → (vectorProjection vectors d)[i]? = some p →
      (∃ c : ℝ, ∀ j, p j = c * d j) ∧ ∑ j, (v j - p j) * d j = 0 := by
  refine ⟨by simp [vectorProjection], ?_⟩
  intro i v p hv hp
  unfold vectorProjection at hp
  rw [List.getElem?_map, hv] at hp
  have hp' : (fun i => (∑ j, v j * unit d j) * unit d i) = p := by simpa using hp
  have hs := sum_sq_pos d h
  constructor
  · refine ⟨(∑ j, v j * unit d j) / Real.sqrt (∑ j, d j ^ 2), ?_⟩
    intro j
    rw [← hp']
    simp only [unit]
    ring
  · have hu := unit_sq d h
    have key : ∑ j, (v j - p j) * unit d j = 0 := by
      rw [← hp']
      simp only [sub_mul, Finset.sum_sub_distrib]
      have : ∑ x, (∑ j, v j * unit d j) * unit d x * unit d x = (∑ j, v j * unit d j) * ∑ x, unit d x ^ 2 := by
        rw [Finset.mul_sum]
        exact Finset.sum_congr rfl fun x _ => by ring
      rw [this, hu]; ring
    have hs' : Real.sqrt (∑ j, d j ^ 2) ≠ 0 := (Real.sqrt_pos.mpr hs).ne'
    have : ∑ j, (v j - p j) * d j = Real.sqrt (∑ j, d j ^ 2) * ∑ j, (v j - p j) * unit d j := by
      rw [Finset.mul_sum]
      refine Finset.sum_congr rfl fun j _ => ?_
      unfold unit
      field_simp
    rw [this, key, mul_zero]

/-- C94: a vector along the direction is its own projection. -/
theorem projection_fixed (d : Fin D → ℝ) (h : d ≠ 0) (c : ℝ) :
    vectorProjection [fun j => c * d j] d = [fun j => c * d j] := by
  have hs := sum_sq_pos d h
  have hq := Real.mul_self_sqrt hs.le
  have hs' : Real.sqrt (∑ j, d j ^ 2) ≠ 0 := (Real.sqrt_pos.mpr hs).ne'
  unfold vectorProjection
  simp only [List.map_cons, List.map_nil, List.cons.injEq, and_true]
  funext i
  have : ∑ j, c * d j * unit d j = c * Real.sqrt (∑ j, d j ^ 2) := by
    unfold unit
    have e : ∀ j, c * d j * (d j / Real.sqrt (∑ j, d j ^ 2)) = c / Real.sqrt (∑ j, d j ^ 2) * d j ^ 2 := fun j => by ring
    simp only [e]
    rw [← Finset.mul_sum, div_mul_eq_mul_div, div_eq_iff hs', mul_assoc, hq]
  rw [this]
  unfold unit
  field_simp

end

/-- C94: an array of `N` vectors has `N` projections. -/
theorem shape_rows (N D : Nat) : projShape [N, D] D = .ok [N, D] := by
  by_cases h : D = 1
  · subst h
    simp [projShape, broadcast, broadcastRev, bind, Except.bind, pure, Except.pure]
  · simp [projShape, broadcast, broadcastRev, bind, Except.bind, pure, Except.pure, h, Ne.symm h]

/-- C94 fails for a single vector, although an array (..., D) is allowed: IndexError. -/
theorem shape_single (D : Nat) : projShape [D] D = .error .indexError := by
  simp [projShape, broadcast, broadcastRev, bind, Except.bind, pure, Except.pure]

/-- C94 fails for arrays of more dimensions: (N, M, D) is a ValueError for most sizes, and for M = D the result has the
shape (N, 1, D). -/
theorem shape_more (N M D : Nat) (hM : M ≠ 1) (hD : D ≠ 1) :
    projShape [N, M, D] D = if M = D then .ok [N, 1, D] else .error .valueError := by
  by_cases h : M = D
  · subst h
    simp [projShape, broadcast, broadcastRev, bind, Except.bind, pure, Except.pure]
  · simp [projShape, broadcast, broadcastRev, bind, Except.bind, pure, Except.pure, h, hM, hD]

end NBK.Columns
