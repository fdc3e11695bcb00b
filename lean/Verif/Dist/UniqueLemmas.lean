import Verif.Dist.Lemmas
import Mathlib.Order.Basic
import Mathlib.Data.Finset.Lattice.Lemmas

/-! Helper lemmas for `unique_labels`. -/
set_option linter.unusedSimpArgs false
namespace NBK.Dist
variable {α : Type} [LinearOrder α]

theorem last_max {l : List α} (h : l.Pairwise (· ≤ ·)) {z : α} (hz : l.getLast? = some z) :
    z ∈ l ∧ ∀ y ∈ l, y ≤ z := by
  obtain ⟨ys, rfl⟩ := List.getLast?_eq_some_iff.mp hz
  rw [List.pairwise_append] at h
  refine ⟨by simp, ?_⟩
  intro y hy
  rcases List.mem_append.mp hy with hy | hy
  · exact h.2.2 y hy z (by simp)
  · simp at hy; exact hy.le

theorem head_min {l : List α} (h : l.Pairwise (· ≤ ·)) {a : α} (ha : l.head? = some a) :
    a ∈ l ∧ ∀ y ∈ l, a ≤ y := by
  cases l with
  | nil => simp at ha
  | cons b l =>
    simp at ha; subst ha
    rw [List.pairwise_cons] at h
    refine ⟨by simp, ?_⟩
    intro y hy
    rcases List.mem_cons.mp hy with rfl | hy
    · exact le_rfl
    · exact h.1 y hy

theorem nu_step (pre d post : List α) (hs : (pre ++ d ++ post).Pairwise (· ≤ ·)) :
    ((pre ++ d).toFinset.filter (fun y => post.head? ≠ some y)).card
      = (pre.toFinset.filter (fun y => (d ++ post).head? ≠ some y)).card
        + (match d.getLast? with
            | none => 0
            | some z => if post.head? = some z then d.dedup.length - 1 else d.dedup.length) := by
  rw [List.pairwise_append] at hs
  obtain ⟨hpd, hpost, hcross⟩ := hs
  rw [List.pairwise_append] at hpd
  obtain ⟨hpre, hd, hpc⟩ := hpd
  cases hdl : d.getLast? with
  | none =>
    have : d = [] := by simpa using hdl
    subst this; simp
  | some z =>
    obtain ⟨hzm, hzmax⟩ := last_max hd hdl
    obtain ⟨a, ha⟩ : ∃ a, d.head? = some a := by
      cases d with
      | nil => simp at hzm
      | cons b d => exact ⟨b, rfl⟩
    obtain ⟨ham, hamin⟩ := head_min hd ha
    have hh : (d ++ post).head? = some a := by rw [List.head?_append, ha]; rfl
    have hD : (if post.head? = some z then d.dedup.length - 1 else d.dedup.length)
        = (d.toFinset.filter (fun y => post.head? ≠ some y)).card := by
      by_cases hz : post.head? = some z
      · rw [if_pos hz]
        have : d.toFinset.filter (fun y => post.head? ≠ some y) = d.toFinset.erase z := by
          ext y
          simp only [Finset.mem_filter, List.mem_toFinset, Finset.mem_erase, hz, ne_eq, Option.some.injEq]
          constructor
          · rintro ⟨h1, h2⟩; exact ⟨fun h => h2 h.symm, h1⟩
          · rintro ⟨h1, h2⟩; exact ⟨h2, fun h => h1 h.symm⟩
        rw [this, Finset.card_erase_of_mem (List.mem_toFinset.mpr hzm), List.card_toFinset]
      · rw [if_neg hz]
        have : d.toFinset.filter (fun y => post.head? ≠ some y) = d.toFinset := by
          apply Finset.filter_true_of_mem
          intro y hy hcon
          rw [List.mem_toFinset] at hy
          have h1 := hzmax y hy
          have h2 := hcross z (by simp [hzm]) y (List.mem_of_mem_head? hcon)
          have : y = z := le_antisymm h1 h2
          subst this; exact hz hcon
        rw [this, List.card_toFinset]
    rw [hh]
    simp only [] at hD ⊢
    rw [hD, ← Finset.card_union_of_disjoint]
    · congr 1
      ext y
      simp only [Finset.mem_filter, List.mem_toFinset, List.mem_append, Finset.mem_union, ne_eq,
        Option.some.injEq]
      constructor
      · rintro ⟨h1 | h1, h2⟩
        · by_cases hya : a = y
          · subst hya; exact Or.inr ⟨ham, h2⟩
          · exact Or.inl ⟨h1, hya⟩
        · exact Or.inr ⟨h1, h2⟩
      · rintro (⟨h1, h2⟩ | ⟨h1, h2⟩)
        · refine ⟨Or.inl h1, ?_⟩
          intro hcon
          have h3 := hpc y h1 a ham
          have h4 := hcross a (by simp [ham]) y (List.mem_of_mem_head? hcon)
          exact h2 (le_antisymm h4 h3)
        · exact ⟨Or.inr h1, h2⟩
    · rw [Finset.disjoint_left]
      intro y hy1 hy2
      simp only [Finset.mem_filter, List.mem_toFinset, ne_eq, Option.some.injEq] at hy1 hy2
      exact hy1.2 (le_antisymm (hamin y hy2.1) (hpc y hy1.1 a ham))

theorem nu_sum (D : List (List α)) (hs : D.flatten.Pairwise (· ≤ ·)) (r : Nat) (hr : r ≤ D.length) :
    ((D.mapIdx fun r l => nunique D r l).take r).sum
      = ((D.take r).flatten.toFinset.filter (fun y => (D.drop r).flatten.head? ≠ some y)).card := by
  induction r with
  | zero => simp
  | succ r ih =>
    have hr' : r < D.length := by omega
    have e1 : (D.mapIdx fun r l => nunique D r l).take (r + 1)
        = (D.mapIdx fun r l => nunique D r l).take r ++ [nunique D r D[r]] := by
      rw [List.take_succ_eq_append_getElem (by simpa using hr')]
      simp
    rw [e1, List.sum_append, ih (by omega)]
    have e2 : D.take (r + 1) = D.take r ++ [D[r]] := List.take_succ_eq_append_getElem hr'
    have e3 : D.drop r = D[r] :: D.drop (r + 1) := List.drop_eq_getElem_cons hr'
    have hflat : D.flatten = (D.take r).flatten ++ D[r] ++ (D.drop (r+1)).flatten :=
      NBK.Comm.flatten_split D r hr'
    have key := nu_step (D.take r).flatten D[r] (D.drop (r+1)).flatten (hflat ▸ hs)
    rw [e2, List.flatten_append, List.flatten_singleton, key, e3, List.flatten_cons]
    simp only [nunique, next_eq, List.sum_cons, List.sum_nil, Nat.add_zero] <;> congr 1

theorem label_eq (pre d post : List α) (hs : (pre ++ d ++ post).Pairwise (· ≤ ·)) (x : α) (hx : x ∈ d) :
    ((d.filter (· < x)).dedup).length + (pre.toFinset.filter (fun y => (d ++ post).head? ≠ some y)).card
      = ((pre ++ d ++ post).toFinset.filter (· < x)).card := by
  rw [List.pairwise_append] at hs
  obtain ⟨hpd, hpost, hcross⟩ := hs
  rw [List.pairwise_append] at hpd
  obtain ⟨hpre, hd, hpc⟩ := hpd
  obtain ⟨a, ha⟩ : ∃ a, d.head? = some a := by
    cases d with
    | nil => simp at hx
    | cons b d => exact ⟨b, rfl⟩
  obtain ⟨ham, hamin⟩ := head_min hd ha
  have hh : (d ++ post).head? = some a := by rw [List.head?_append, ha]; rfl
  rw [← List.card_toFinset, hh, ← Finset.card_union_of_disjoint]
  · congr 1
    ext y
    simp only [Finset.mem_filter, List.mem_toFinset, List.mem_append, Finset.mem_union, ne_eq,
        Option.some.injEq, List.mem_filter, decide_eq_true_eq]
    constructor
    · rintro (⟨h1, h2⟩ | ⟨h1, h2⟩)
      · exact ⟨Or.inl (Or.inr h1), h2⟩
      · exact ⟨Or.inl (Or.inl h1), lt_of_lt_of_le (lt_of_le_of_ne (hpc y h1 a ham) (Ne.symm h2)) (hamin x hx)⟩
    · rintro ⟨(h1 | h1) | h1, h2⟩
      · by_cases hya : a = y
        · subst hya; exact Or.inl ⟨ham, h2⟩
        · exact Or.inr ⟨h1, hya⟩
      · exact Or.inl ⟨h1, h2⟩
      · exact absurd (hcross x (by simp [hx]) y h1) (not_le.mpr h2)
  · rw [Finset.disjoint_left]
    intro y hy1 hy2
    simp only [Finset.mem_filter, List.mem_toFinset, ne_eq, Option.some.injEq, List.mem_filter,
      decide_eq_true_eq] at hy1 hy2
    exact hy2.2 (le_antisymm (hamin y hy1.1) (hpc y hy2.1 a ham))

theorem uniqueLabels_eq (D : List (List α)) (hs : D.flatten.Pairwise (· ≤ ·)) :
    uniqueLabels D = D.map (List.map fun x => (D.flatten.toFinset.filter (· < x)).card) := by
  apply List.ext_getElem?
  intro r
  simp only [uniqueLabels, List.getElem?_mapIdx, List.getElem?_map]
  cases hr : D[r]? with
  | none => rfl
  | some d =>
    obtain ⟨hr', rfl⟩ := List.getElem?_eq_some_iff.mp hr
    simp only [Option.map_some, Option.some.injEq, uniqueInverse, List.map_map]
    apply List.map_congr_left
    intro x hx
    simp only [Function.comp_apply]
    rw [nu_sum D hs r (by omega)]
    have e3 : D.drop r = D[r] :: D.drop (r + 1) := List.drop_eq_getElem_cons hr'
    have hflat : D.flatten = (D.take r).flatten ++ D[r] ++ (D.drop (r+1)).flatten :=
      NBK.Comm.flatten_split D r hr'
    have := label_eq (D.take r).flatten D[r] (D.drop (r+1)).flatten (hflat ▸ hs) x hx
    rw [← hflat] at this
    rw [← this, e3, List.flatten_cons]

end NBK.Dist
