import Verif.CatObj.Model
import Verif.Slicing.Props

/-! # An index of rows is a list of row numbers that depends on the number of rows only -/
set_option linter.unusedSimpArgs false
namespace NBK.CatObj
open NBK.Slicing NBK.PySlice

theorem rowsAt_map {α β : Type} (f : α → β) (l : List α) (ps : List Int) : rowsAt (l.map f) ps = (rowsAt l ps).map f := by
  unfold rowsAt
  induction ps with
  | nil => rfl
  | cons p ps ih =>
    simp only [List.filterMap_cons, List.getElem?_map] at ih ⊢
    by_cases hp : p < 0
    · simp only [hp, if_true]; exact ih
    · simp only [hp, if_false]
      cases l[p.toNat]? with
      | none => exact ih
      | some x => simp only [Option.map_some, List.map_cons, ih]

theorem takeInts_map {α β : Type} (f : α → β) (l : List α) (ps : List Int) : takeInts (l.map f) ps = (takeInts l ps).map (List.map f) := by
  unfold takeInts
  induction ps with
  | nil => rfl
  | cons p ps ih =>
    rw [List.mapM_cons, List.mapM_cons, ih]
    simp only [List.length_map, List.getElem?_map]
    generalize (if p < 0 then p + (l.length : Int) else p) = q
    by_cases hq : q < 0
    · simp only [hq, if_true]; rfl
    · simp only [hq, if_false]
      cases l[q.toNat]? with
      | none => rfl
      | some x =>
        simp only [Option.map_some]
        cases (ps.mapM fun (p : Int) =>
          let q : Int := if p < 0 then p + l.length else p
          if q < 0 then (.error .indexError : Except NBK.Slicing.Err α)
          else match l[q.toNat]? with
            | some x => .ok x
            | none => .error .indexError) <;> rfl

theorem takeMask_map {α β : Type} (f : α → β) (l : List α) (m : List Bool) : takeMask (l.map f) m = (takeMask l m).map (List.map f) := by
  unfold takeMask
  rw [List.length_map]
  split
  · rfl
  · simp only [Except.map, Except.ok.injEq]
    rename_i h
    clear h
    induction l generalizing m with
    | nil => rfl
    | cons x l ih =>
      cases m with
      | nil => rfl
      | cons b m => cases b <;> simp [ih]

/-- Indexing does not look at the rows. -/
theorem colIndex_map {α β : Type} (f : α → β) (l : List α) (ix : Index) : colIndex (l.map f) ix = (colIndex l ix).map (List.map f) := by
  cases ix with
  | ellipsis => rfl
  | slice s =>
    simp only [colIndex, pySlice, List.length_map]
    cases indices l.length s with
    | none => rfl
    | some p => simp only [Option.map_some, rowsAt_map]; rfl
  | mask m => exact takeMask_map f l m
  | ints ps => exact takeInts_map f l ps

theorem filterMap_of_map {α β : Type} (f : α → Option β) : ∀ (l : List α) (r : List β), l.map f = r.map some → l.filterMap f = r
  | [], r, h => by cases r with | nil => rfl | cons _ _ => cases h
  | x :: l, r, h => by
    cases r with
    | nil => cases h
    | cons y r =>
      simp only [List.map_cons, List.cons.injEq] at h
      rw [List.filterMap_cons, h.1]
      simp only [filterMap_of_map f l r h.2]

/-- The rows of an indexed column are the rows at the positions. -/
theorem colIndex_pos {α : Type} (l : List α) (ix : Index) :
    colIndex l ix = (colIndex (List.range l.length) ix).map fun idx => idx.filterMap fun i => l[i]? := by
  have e : (List.range l.length).map (fun i => l[i]?) = l.map some := by
    apply List.ext_getElem?
    intro i
    rw [List.getElem?_map, List.getElem?_map]
    by_cases hi : i < l.length
    · rw [List.getElem?_range hi, List.getElem?_eq_getElem hi]; simp [List.getElem?_eq_getElem hi]
    · rw [List.getElem?_eq_none (by simpa using hi), List.getElem?_eq_none (by simpa using hi)]; rfl
  have h1 := colIndex_map (fun i => l[i]?) (List.range l.length) ix
  have h2 := colIndex_map (some : α → Option α) l ix
  rw [e, h2] at h1
  cases hx : colIndex l ix with
  | error e =>
    cases hy : colIndex (List.range l.length) ix with
    | error e' => rw [hx, hy] at h1; simp only [Except.map, Except.error.injEq] at h1 ⊢; exact h1
    | ok b => rw [hx, hy] at h1; cases h1
  | ok a =>
    cases hy : colIndex (List.range l.length) ix with
    | error e' => rw [hx, hy] at h1; cases h1
    | ok b =>
      rw [hx, hy] at h1
      simp only [Except.map, Except.ok.injEq] at h1 ⊢
      exact (filterMap_of_map _ b a h1.symm).symm

theorem takeInts_mem {α : Type} (l : List α) : ∀ (ps : List Int) (r : List α), takeInts l ps = .ok r → r.length = ps.length ∧ ∀ x ∈ r, x ∈ l
  | [], r, h => by cases h; exact ⟨rfl, fun _ hx => absurd hx List.not_mem_nil⟩
  | p :: ps, r, h => by
    unfold takeInts at h
    rw [List.mapM_cons] at h
    dsimp only at h
    generalize (if p < 0 then p + (l.length : Int) else p) = q at h
    by_cases hq : q < 0
    · rw [if_pos hq] at h; cases h
    · rw [if_neg hq] at h
      cases hl : l[q.toNat]? with
      | none => rw [hl] at h; cases h
      | some x =>
        rw [hl] at h
        dsimp only [bind, Except.bind] at h
        cases hr : takeInts l ps with
        | error e => unfold takeInts at hr; dsimp only at hr; rw [hr] at h; cases h
        | ok r' =>
          have ih := takeInts_mem l ps r' hr
          unfold takeInts at hr; dsimp only at hr; rw [hr] at h
          cases h
          refine ⟨by simp [ih.1], ?_⟩
          intro y hy
          rcases List.mem_cons.mp hy with rfl | hy
          · exact List.mem_of_getElem? hl
          · exact ih.2 y hy

/-- The rows of an index are rows of the column. -/
theorem colIndex_mem {α : Type} (l : List α) (ix : Index) (r : List α) (h : colIndex l ix = .ok r) : ∀ x ∈ r, x ∈ l := by
  cases ix with
  | ellipsis => cases h; exact fun _ hx => hx
  | slice s =>
    simp only [colIndex, pySlice] at h
    cases hi : indices l.length s with
    | none => rw [hi] at h; cases h
    | some p =>
      rw [hi] at h
      simp only [Option.map_some] at h
      cases h
      intro x hx
      unfold rowsAt at hx
      obtain ⟨a, _, ha⟩ := List.mem_filterMap.mp hx
      split at ha
      · cases ha
      · exact List.mem_of_getElem? ha
  | mask m =>
    simp only [colIndex, takeMask] at h
    split at h
    · cases h
    · cases h
      intro x hx
      obtain ⟨a, ha, hb⟩ := List.mem_filterMap.mp hx
      split at hb
      · cases hb; exact (List.of_mem_zip ha).1
      · cases hb
  | ints ps => exact (takeInts_mem l ps r h).2

/-- The size that is announced is the number of rows. -/
theorem colIndex_size {α : Type} (l : List α) (ix : Index) (r : List α) (h : colIndex l ix = .ok r) : newSize l.length ix = .ok r.length := by
  cases ix with
  | ellipsis => cases h; rfl
  | slice s =>
    simp only [colIndex, pySlice] at h
    cases hi : indices l.length s with
    | none => rw [hi] at h; cases h
    | some p =>
      obtain ⟨a, b, c⟩ := p
      rw [hi] at h
      simp only [Option.map_some] at h
      cases h
      rw [newSize_slice l.length s a b c hi, rowsAt_length l _ fun p hp => walk_valid l.length s a b c hi p hp]
  | mask m =>
    simp only [colIndex, takeMask] at h
    split at h
    · cases h
    · rename_i hm
      rw [not_not] at hm
      cases h
      simp only [newSize]
      rw [if_neg (by simpa using hm), takeMask_length l m hm]
  | ints ps => simp only [newSize, (takeInts_mem l ps r h).1]

/-- The indices that a catalog of `n` rows accepts. -/
def Fits (n : Nat) : Index → Prop
  | .ellipsis => True
  | .slice s => s.step ≠ some 0
  | .mask m => m.length = n
  | .ints ps => ∀ p ∈ ps, -(n : Int) ≤ p ∧ p < n

theorem takeInts_iff {α : Type} (l : List α) (ps : List Int) : (∃ r, takeInts l ps = .ok r) ↔ ∀ p ∈ ps, -(l.length : Int) ≤ p ∧ p < l.length := by
  constructor
  · rintro ⟨r, h⟩
    induction ps generalizing r with
    | nil => intro p hp; cases hp
    | cons p ps ih =>
      unfold takeInts at h
      rw [List.mapM_cons] at h
      dsimp only at h
      by_cases hq : (if p < 0 then p + (l.length : Int) else p) < 0
      · rw [if_pos hq] at h; cases h
      · rw [if_neg hq] at h
        cases hl : l[(if p < 0 then p + (l.length : Int) else p).toNat]? with
        | none => rw [hl] at h; cases h
        | some x =>
          rw [hl] at h
          dsimp only [bind, Except.bind] at h
          have hlt := (List.getElem?_eq_some_iff.mp hl).1
          intro q hq'
          rcases List.mem_cons.mp hq' with rfl | hq'
          · split at hq <;> split at hlt <;> omega
          · cases hr : takeInts l ps with
            | error e => unfold takeInts at hr; dsimp only at hr; rw [hr] at h; cases h
            | ok r' => exact ih r' hr q hq'
  · intro h
    obtain ⟨r, hr, _⟩ := takeInts_ok l ps h
    exact ⟨r, hr⟩

theorem colIndex_ok_iff {α : Type} (l : List α) (ix : Index) : (∃ r, colIndex l ix = .ok r) ↔ Fits l.length ix := by
  cases ix with
  | ellipsis => simp [colIndex, Fits]
  | slice s =>
    simp only [colIndex, pySlice, Fits]
    constructor
    · rintro ⟨r, h⟩ hs
      have : indices l.length s = none := by unfold indices; simp [hs]
      rw [this] at h; cases h
    · intro hs
      obtain ⟨a, b, c, h⟩ := indices_isSome l.length s hs
      rw [h]
      exact ⟨_, rfl⟩
  | mask m =>
    simp only [colIndex, takeMask, Fits]
    constructor
    · rintro ⟨r, h⟩
      split at h
      · cases h
      · rename_i hm; simpa using hm
    · intro hm
      rw [if_neg (by simpa using hm)]
      exact ⟨_, rfl⟩
  | ints ps => exact takeInts_iff l ps

end NBK.CatObj
