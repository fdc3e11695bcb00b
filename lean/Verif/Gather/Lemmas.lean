import Verif.Gather.Model
import Verif.Comm.Basic

/-! Helper lemmas for gather/scatter. -/
set_option linter.unusedSimpArgs false
namespace NBK.Gather

theorem writeAt_append {ρ : Type} (A : List (Option ρ)) (d : List ρ) (m : Nat) :
    writeAt (A ++ List.replicate (d.length + m) none) A.length d
      = A ++ d.map some ++ List.replicate m none := by
  apply List.ext_getElem?
  intro i
  simp only [writeAt, List.getElem?_mapIdx, List.getElem?_append, List.getElem?_replicate,
    List.getElem?_map, List.length_append, List.length_map]
  by_cases h1 : i < A.length
  · have : ¬ (A.length ≤ i ∧ i < A.length + d.length) := by omega
    have h3 : i < A.length + d.length := by omega
    simp [h1, h3]; intro h; omega
  · by_cases h2 : i < A.length + d.length
    · have h3 : i - A.length < d.length + m := by omega
      have h4 : i - A.length < d.length := by omega
      simp [h1, h2, h3, h4, Nat.le_of_not_lt h1]
    · have h5 : ¬ (A.length ≤ i ∧ i < A.length + d.length) := by omega
      by_cases h6 : i - A.length < d.length + m
      · have h7 : i - (A.length + d.length) < m := by omega
        simp [h1, h2, h6, h7]
      · have h7 : ¬ i - (A.length + d.length) < m := by omega
        simp [h1, h2, h6, h7]

theorem gatherv_fold {ρ : Type} (ds pre : List (List ρ)) :
    (ds.zipIdx pre.length).foldl
      (fun buf p => writeAt buf (offset ((pre ++ ds).map List.length) p.2) p.1)
      (pre.flatten.map some ++ List.replicate (ds.map List.length).sum none)
    = (pre ++ ds).flatten.map some := by
  induction ds generalizing pre with
  | nil => simp
  | cons d ds ih =>
    have h := ih (pre ++ [d])
    simp only [List.append_assoc, List.singleton_append, List.length_append, List.length_singleton] at h
    rw [List.zipIdx_cons, List.foldl_cons, ← h]
    congr 1
    have hoff : offset ((pre ++ d :: ds).map List.length) pre.length = (pre.flatten.map some).length := by
      simp only [offset, List.map_append, List.length_map, List.length_flatten]
      rw [List.take_append, List.take_of_length_le (by simp)]; simp
    simp only [hoff, List.map_cons, List.sum_cons]
    rw [writeAt_append]
    simp

theorem gatherv_eq {ρ : Type} (D : List (List ρ)) : gatherv D = D.flatten.map some := by
  have := gatherv_fold D []
  simpa [gatherv] using this

theorem newlength_sum (n P : Nat) (hP : 0 < P) : ((List.range P).map (newlength n P)).sum = n := by
  have aux : ∀ (k q m : Nat), ((List.range k).map (fun r => q + if r < m then 1 else 0)).sum = k * q + min k m := by
    intro k q m
    induction k with
    | zero => simp
    | succ k ih =>
      rw [List.range_succ, List.map_append, List.sum_append, ih]
      simp only [List.map_cons, List.map_nil, List.sum_cons, List.sum_nil]
      rw [Nat.succ_mul]
      split <;> omega
  have := aux P (n / P) (n % P)
  unfold newlength
  rw [this]
  have h1 := Nat.div_add_mod n P
  have h2 := Nat.mod_lt n hP
  omega

theorem pieces_eq {ρ : Type} (rows : List ρ) (cnts : List Nat) (h : cnts.sum = rows.length) :
    (cnts.mapIdx fun r c => (List.range c).map fun j => rows[offset cnts r + j]?)
      = (cnts.mapIdx fun r c => (rows.drop (offset cnts r)).take c).map (List.map some) := by
  apply List.ext_getElem?
  intro r
  simp only [List.getElem?_mapIdx, List.getElem?_map]
  cases hr : cnts[r]? with
  | none => rfl
  | some c =>
    simp only [Option.map_some]
    congr 1
    have hle : offset cnts r + c ≤ rows.length := by
      rw [← h]
      obtain ⟨hr', rfl⟩ := List.getElem?_eq_some_iff.mp hr
      have e := congrArg List.sum (List.take_append_drop r cnts)
      rw [List.drop_eq_getElem_cons hr', List.sum_append, List.sum_cons] at e
      simp only [offset]; omega
    apply List.ext_getElem?
    intro j
    by_cases hj : j < c
    · have : offset cnts r + j < rows.length := by omega
      simp [List.getElem?_map, List.getElem?_take, hj, List.getElem?_drop, this]
    · simp [List.getElem?_map, List.getElem?_take, hj, List.getElem?_range]

end NBK.Gather
