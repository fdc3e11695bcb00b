import Verif.FrontPad.Lemmas

/-!
# C01: front padding delivers exactly the preceding rows

`R` lists, for every rank in order, its local rows and its `front` argument.
-/
namespace NBK.FrontPad

/-- Specification: the rows of the global array that precede rank `r`. -/
def before {α : Type} (R : List (List α × Nat)) (r : Nat) : List α :=
  ((R.take r).map Prod.fst).flatten

/-- Specification: the last `k` elements of a list. -/
def lastK {α : Type} (k : Nat) (l : List α) : List α := l.drop (l.length - k)

theorem rank_split {α : Type} {R : List (List α × Nat)} {r : Nat} {p : List α × Nat}
    (h : R[r]? = some p) : ∃ L₂, R = R.take r ++ L₂ ∧ (R.take r).length = r := by
  refine ⟨R.drop r, (List.take_append_drop r R).symm, ?_⟩
  have := (List.getElem?_eq_some_iff.mp h).1
  simp; omega

theorem before_length {α : Type} (R : List (List α × Nat)) (r : Nat) :
    (before R r).length = (lens (R.take r)).sum := by
  simp [before, lens, List.length_flatten, Function.comp_def]

/-- C01, success: if every rank asks for at most as many rows as precede it, no rank fails and every
rank gets the `front` globally preceding rows followed by its own rows. -/
theorem frontPad_ok {α : Type} (R : List (List α × Nat))
    (h : ∀ r p, R[r]? = some p → p.2 ≤ (before R r).length) :
    frontPad R = .ok (R.mapIdx fun r p => lastK p.2 (before R r) ++ p.1) := by
  unfold frontPad
  simp only []
  rw [if_neg]
  · congr 1
    apply List.ext_getElem?
    intro r
    simp only [List.getElem?_map, List.getElem?_mapIdx, List.zip]
    rw [List.getElem?_zipWith]
    simp only [List.getElem?_mapIdx]
    cases hr : R[r]? with
    | none => simp
    | some p =>
      obtain ⟨L₂, hR, hlen⟩ := rank_split hr
      have hp := h r p hr
      rw [before_length] at hp
      have key := recv_rank (R.take r) L₂ p.2 hp
      rw [← hR, hlen] at key
      simp only [Option.map_some, lastK, before_length]
      have key' := congrArg (· ++ p.1) key
      simpa [List.zip, before] using key'
  · simp only [List.any_eq_true, not_exists, not_and, bne_iff_ne, ne_eq, not_not]
    intro q hq
    obtain ⟨r, hr⟩ := List.mem_iff_getElem?.mp hq
    rw [List.getElem?_zip_eq_some, List.getElem?_mapIdx] at hr
    obtain ⟨h1, h2⟩ := hr
    obtain ⟨L₂, hR, hlen⟩ := rank_split h1
    have hp := h r q.1 h1
    rw [before_length] at hp
    have key := sum_rank (R.take r) L₂ q.1.2 hp
    rw [← hR, hlen] at key
    rw [h1] at h2
    simp only [Option.map_some, Option.some.injEq] at h2
    rw [← h2]; exact key

/-- C01, failure: if some rank asks for more rows than precede it, every rank raises `ValueError`
(nobody returns a short array). -/
theorem frontPad_error {α : Type} (R : List (List α × Nat))
    (h : ∃ r p, R[r]? = some p ∧ (before R r).length < p.2) :
    frontPad R = .error .valueError := by
  obtain ⟨r, p, hr, hp⟩ := h
  unfold frontPad
  simp only []
  rw [if_pos]
  rw [List.any_eq_true]
  obtain ⟨L₂, hR, hlen⟩ := rank_split hr
  rw [before_length] at hp
  have key := sum_rank_lt (R.take r) L₂ p.2 hp
  rw [← hR, hlen] at key
  refine ⟨(p, torecv (lens R) r p.2), ?_, by simpa using key⟩
  apply List.mem_iff_getElem?.mpr
  refine ⟨r, ?_⟩
  rw [List.getElem?_zip_eq_some, List.getElem?_mapIdx, hr]
  simp

/-- C01, both directions in one statement. -/
theorem frontPad_ok_iff {α : Type} (R : List (List α × Nat)) :
    (∃ out, frontPad R = .ok out) ↔ ∀ r p, R[r]? = some p → p.2 ≤ (before R r).length := by
  constructor
  · rintro ⟨out, hout⟩ r p hr
    by_contra hlt
    have := frontPad_error R ⟨r, p, hr, by omega⟩
    rw [this] at hout; cases hout
  · intro h; exact ⟨_, frontPad_ok R h⟩

/-- Non-vacuity: four ranks, one empty, windows that span several ranks. -/
example : ∀ r p, ([([1, 2], 0), ([], 2), ([3], 1), ([4, 5, 6], 3)] : List (List Nat × Nat))[r]? = some p →
    p.2 ≤ (before [([1, 2], 0), ([], 2), ([3], 1), ([4, 5, 6], 3)] r).length := by
  intro r p h
  match r, h with
  | 0, h | 1, h | 2, h | 3, h => simp at h; subst h; simp [before]
example : frontPad ([([1, 2], 0), ([], 2), ([3], 1), ([4, 5, 6], 3)] : List (List Nat × Nat))
    = .ok [[1, 2], [1, 2], [2, 3], [1, 2, 3, 4, 5, 6]] := by rfl
/-- Non-vacuity of the failing case. -/
example : frontPad ([([1, 2], 0), ([3], 3)] : List (List Nat × Nat)) = .error .valueError := by rfl

end NBK.FrontPad
