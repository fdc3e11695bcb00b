import Verif.CgmObj.Props

/-!
# C112: `CylindricalGroups` as a whole
-/
set_option linter.unusedSimpArgs false
namespace NBK.CgmObj
open NBK

/-- The attributes for accepted arguments: the box of the source, or else the argument. -/
def Accepted (s : Source) (g : Args) (a : Attrs) : Prop :=
  a.rankby = rankList g.rankby ∧ a.rperp = g.rperp ∧ a.rpar = g.rpar ∧ a.periodic = g.periodic ∧
    fill (s.box.or g.box) = .ok a.box ∧ checkLos g.los = .ok a.los ∧ (g.periodic = true → s.box.or g.box ≠ none)

theorem boxOf_eq (s : Source) (g : Args) : boxOf s g = s.box.or g.box := by
  unfold boxOf; cases s.box <;> rfl

theorem new_eq (e : Env) (s : Source) (g : Args) (a : Attrs) (h : Accepted s g a) (hpos : "Position" ∈ s.columns)
    (hr : ∀ c ∈ rankList g.rankby, c ∈ s.columns) :
    new e s g = match run e s a with
      | (.error x, s') => (.error x, s')
      | (.ok groups, s') => (.ok ⟨a, groups⟩, s') := by
  obtain ⟨h1, h2, h3, h4, h5, h6, h7⟩ := h
  unfold new
  rw [if_neg (by simpa using hpos), if_neg (by
    simp only [List.any_eq_true, decide_eq_true_eq, not_exists, not_and, not_not]
    exact hr)]
  rw [boxOf_eq]
  rw [if_neg (by rintro ⟨p, q⟩; exact h7 p q), h5]
  simp only [h6]
  have ha : a = ⟨rankList g.rankby, g.rperp, g.rpar, a.los, g.periodic, a.box⟩ := by
    cases a; simp_all
  rw [← ha] <;> (rcases run e s a with ⟨_ | _, _⟩ <;> rfl)

/-- C112: what `CylindricalGroups` returns. The rows follow the objects of the catalog on each rank. The objects are ranked by the columns, the largest values first
(without columns, the last objects first). An object is a central (type 0) unless a central of higher rank is within its cylinder; a satellite (type 1) belongs to the
highest ranked of these; the label of a group is the number of centrals ranked above its central, and the central counts its satellites. The source has its columns
back, except for one called `origind`. -/
theorem groups_partial (e : Env) (s : Source) (g : Args) (a : Attrs) (ha : Accepted s g a) (W : World e s a) (hpos : "Position" ∈ s.columns) (h1 : a.rankby.Nodup)
    (h2 : ∀ k ∈ a.rankby, k ∈ s.columns ∧ s.dtype k ≠ .other ∧ k ≠ "origind")
    (hneg : ∀ k ∈ a.rankby, s.dtype k ≠ .int → ∀ x ∈ s.all, (x.row k).neg = false) (hne : s.ranks ≠ []) (hr : [] ∉ s.ranks)
    (hbox : ∀ L, a.used = some L → ∀ i, ∀ x ∈ s.all, 0 ≤ x.pos i ∧ x.pos i < L i)
    (hself : a.los = none → ∀ x ∈ s.all, dot x.pos x.pos ≠ 0) (hhard : "origind" ∉ s.hard) :
    ∃ o s' prio central host, new e s g = (.ok o, s') ∧ o.attrs = a ∧ Grouped a s prio central host o.groups.flatten ∧
      o.groups.map List.length = s.ranks.map List.length ∧ (∀ c, c ∈ s'.columns ↔ c ∈ s.columns ∧ c ≠ "origind") ∧
      s'.all.map Part.pos = s.all.map Part.pos ∧ ∀ (i : Nat) (x y : Part) (c : String), s.all[i]? = some x → s'.all[i]? = some y → c ≠ "origind" → y.row c = x.row c := by
  obtain ⟨out, prio, central, host, hG, hrun⟩ := run_spec e s a W hpos h1 h2 hneg hne hr hbox hself
  have hlen : out.length = (s.ranks.map List.length).sum := by rw [hG.count, Source.all, List.length_flatten]
  obtain ⟨s2, hs2⟩ : ∃ s2 : Source, s2 = { s.setOrigind with over := s.setOrigind.over.filter fun c => c ≠ "origind" } := ⟨_, rfl⟩
  have hdel : s.setOrigind.delOrigind = .ok s2 := by
    rw [hs2]; unfold Source.delOrigind; rw [if_neg]; exact hhard
  rw [hdel] at hrun
  have hall : s2.all = s.all.mapIdx tag := by rw [hs2]; exact setOrigind_all s
  refine ⟨⟨a, Fof.cut (s.ranks.map List.length) out⟩, s2, prio, central, host, ?_, rfl, ?_, ?_, ?_, ?_, ?_⟩
  · rw [new_eq e s g a ha hpos (fun c hc => (h2 c (by rw [ha.1]; exact hc)).1), hrun]
  · rw [Fof.cut_flatten _ _ hlen]; exact hG
  · exact Fof.cut_map_length _ _ hlen
  · intro c
    have : s2.columns = s.hard ++ (if "origind" ∈ s.over then s.over else s.over ++ ["origind"]).filter fun c => c ≠ "origind" := by rw [hs2]; rfl
    rw [this]
    simp only [Source.columns, List.mem_append, List.mem_filter, decide_eq_true_eq]
    constructor
    · rintro (h | ⟨h, h'⟩)
      · exact ⟨.inl h, by rintro rfl; exact hhard h⟩
      · refine ⟨.inr ?_, h'⟩
        split_ifs at h
        · exact h
        · rcases List.mem_append.mp h with h | h
          · exact h
          · simp at h; exact absurd h h'
    · rintro ⟨h | h, h'⟩
      · exact .inl h
      · refine .inr ⟨?_, h'⟩
        split_ifs
        · exact h
        · exact List.mem_append_left _ h
  · rw [hall]
    apply List.ext_getElem?
    intro i
    rw [List.getElem?_map, List.getElem?_map, List.getElem?_mapIdx]
    cases s.all[i]? <;> rfl
  · intro i x y c hx hy hc
    rw [hall, List.getElem?_mapIdx, hx, Option.map_some, Option.some.injEq] at hy
    subst hy
    show (if c = "origind" then _ else _) = _
    rw [if_neg hc]

/-- C112: a catalog with a column `origind` of its own (a hard column) cannot be grouped: the error comes after all the work, and the column of the catalog is hidden
by the indices. -/
theorem hard_origind_fails (e : Env) (s : Source) (g : Args) (a : Attrs) (ha : Accepted s g a) (W : World e s a) (hpos : "Position" ∈ s.columns) (h1 : a.rankby.Nodup)
    (h2 : ∀ k ∈ a.rankby, k ∈ s.columns ∧ s.dtype k ≠ .other ∧ k ≠ "origind")
    (hneg : ∀ k ∈ a.rankby, s.dtype k ≠ .int → ∀ x ∈ s.all, (x.row k).neg = false) (hne : s.ranks ≠ []) (hr : [] ∉ s.ranks)
    (hbox : ∀ L, a.used = some L → ∀ i, ∀ x ∈ s.all, 0 ≤ x.pos i ∧ x.pos i < L i)
    (hself : a.los = none → ∀ x ∈ s.all, dot x.pos x.pos ≠ 0) (hhard : "origind" ∈ s.hard) :
    ∃ s', new e s g = (.error .valueError, s') ∧ ∀ (i : Nat) (y : Part), s'.all[i]? = some y → y.row "origind" = ⟨false, i⟩ := by
  obtain ⟨out, prio, central, host, hG, hrun⟩ := run_spec e s a W hpos h1 h2 hneg hne hr hbox hself
  have hdel : s.setOrigind.delOrigind = .error .valueError := by unfold Source.delOrigind; rw [if_pos]; exact hhard
  rw [hdel] at hrun
  refine ⟨s.setOrigind, ?_, ?_⟩
  · rw [new_eq e s g a ha hpos (fun c hc => (h2 c (by rw [ha.1]; exact hc)).1), hrun]
  · intro i y hy
    rw [setOrigind_all, List.getElem?_mapIdx, Option.map_eq_some_iff] at hy
    obtain ⟨x, -, rfl⟩ := hy
    rfl

/-- C112: the arguments that are rejected before anything happens to the source. -/
theorem rejects (e : Env) (s : Source) (g : Args)
    (h : "Position" ∉ s.columns ∨ (∃ c ∈ rankList g.rankby, c ∉ s.columns) ∨ (g.periodic = true ∧ s.box = none ∧ g.box = none) ∨
      (∃ q, g.los = some (.num q)) ∨ (∃ l, g.los = some (.vec l) ∧ (l.length ≠ 3 ∨ 2 / 10 ^ 5 < |(l.map fun x => x ^ 2).sum - 1|))) :
    new e s g = (.error .valueError, s) := by
  unfold new
  by_cases c1 : "Position" ∉ s.columns
  · rw [if_pos c1]
  rw [if_neg c1]
  by_cases c2 : ((rankList g.rankby).any fun c => decide (c ∉ s.columns)) = true
  · rw [if_pos c2]
  rw [if_neg c2]
  by_cases c3 : g.periodic = true ∧ boxOf s g = none
  · rw [if_pos c3]
  rw [if_neg c3]
  rcases h with h | ⟨c, hc, h⟩ | ⟨hp, h1, h2⟩ | h
  · exact absurd h c1
  · exfalso; apply c2
    simp only [List.any_eq_true, decide_eq_true_eq]
    exact ⟨c, hc, h⟩
  · exfalso; apply c3
    rw [boxOf_eq, h1, h2]
    exact ⟨hp, rfl⟩
  · have hl : checkLos g.los = .error .valueError := by
      rcases h with ⟨q, hq⟩ | ⟨l, hl, h⟩
      · rw [hq]; rfl
      · rw [hl]
        match l, h with
        | [], _ => rfl
        | [_], _ => rfl
        | [_, _], _ => rfl
        | _ :: _ :: _ :: _ :: _, _ => rfl
        | [x, y, z], h =>
          unfold checkLos
          dsimp only
          rw [if_neg]
          rcases h with h | h
          · simp at h
          · intro hle
            have e1 : dot ![x, y, z] ![x, y, z] = ([x, y, z].map fun x => x ^ 2).sum := by
              show x * x + y * y + z * z = _
              simp; ring
            rw [e1] at hle
            have : (1 : ℚ) / 10 ^ 8 + 1 / 10 ^ 5 < 2 / 10 ^ 5 := by norm_num
            linarith
    rw [hl]
    generalize fill (boxOf s g) = f
    cases f with
    | error x => cases x; rfl
    | ok b => rfl

/-- C112: a rank without objects gives a ValueError, and the column of indices stays in the source. -/
theorem empty_rank_fails (e : Env) (hs : Sort.Contract e.srt) (s : Source) (g : Args) (a : Attrs) (ha : Accepted s g a) (hpos : "Position" ∈ s.columns) (h1 : a.rankby.Nodup)
    (h2 : ∀ k ∈ a.rankby, k ∈ s.columns ∧ s.dtype k ≠ .other ∧ k ≠ "origind")
    (hneg : ∀ k ∈ a.rankby, s.dtype k ≠ .int → ∀ x ∈ s.all, (x.row k).neg = false) (he : [] ∈ s.ranks) :
    ∃ s', new e s g = (.error .valueError, s') ∧ "origind" ∈ s'.columns := by
  obtain ⟨D, ord, d1, d2, d3, d4, d5, d6⟩ := sorted_spec e hs s a.rankby hpos h1 h2 hneg
  have hD : [] ∈ D := by
    obtain ⟨i, hi⟩ := List.mem_iff_getElem?.mp he
    have : (s.ranks.map List.length)[i]? = some 0 := by rw [List.getElem?_map, hi]; rfl
    rw [← d2, List.getElem?_map, Option.map_eq_some_iff] at this
    obtain ⟨r, hr1, hr2⟩ := this
    rw [← List.length_eq_zero_iff.mp hr2]
    exact List.mem_of_getElem? hr1
  obtain ⟨pos, hp⟩ : ∃ pos, pos = D.map fun l => l.map fun r => s.setOrigind.posOf (r "origind").mag := ⟨_, rfl⟩
  have hpe : [] ∈ pos := by rw [hp]; exact List.mem_map.mpr ⟨[], hD, rfl⟩
  have hm : (pos.mapM fun (l : List Vec) => (l.map (· 0)).min?) = none := by
    clear hp d1 d2 d3 hD
    induction pos with
    | nil => simp at hpe
    | cons l pos ih =>
      rw [List.mapM_cons]
      rcases List.mem_cons.mp hpe with h | h
      · subst h; rfl
      · rw [ih h]
        cases (l.map (· 0)).min? <;> rfl
  have hgrid : grid e pos = none := by
    have : lowHigh pos 0 = none := by unfold lowHigh; rw [hm]; rfl
    unfold grid
    rw [this]
  refine ⟨s.setOrigind, ?_, ?_⟩
  · rw [new_eq e s g a ha hpos (fun c hc => (h2 c (by rw [ha.1]; exact hc)).1)]
    have : run e s a = (.error .valueError, s.setOrigind) := by
      unfold run
      dsimp only
      rw [d1]
      dsimp only
      rw [← hp, hgrid]
    rw [this]
  · show "origind" ∈ s.hard ++ (if "origind" ∈ s.over then s.over else s.over ++ ["origind"])
    apply List.mem_append_right
    split_ifs with h
    · exact h
    · simp

/-! ## Other facts -/

/-- C112: the box in the attributes of the source is used even if another is given. -/
theorem source_box (s : Source) (g : Args) (a : Attrs) (h : Accepted s g a) (L : ℚ) (hs : s.box = some (.num L)) : a.box = some fun _ => L := by
  have := h.2.2.2.2.1
  rw [hs] at this
  simp only [Option.some_or, fill, Except.ok.injEq] at this
  exact this.symm

/-- C112: what the arguments mean: one column, columns in order, or none; a box of three sides or a cube, first that of the source; a line of sight or none. -/
theorem arguments_meaning (s : Source) (g : Args) (a : Attrs) (h : Accepted s g a) :
    (g.rankby = .none → a.rankby = []) ∧ (∀ c, g.rankby = .name c → a.rankby = [c]) ∧ (∀ l, g.rankby = .list l → a.rankby = l) ∧
    (∀ x y z, s.box = some (.vec [x, y, z]) → a.box = some ![x, y, z]) ∧ (∀ x y z, s.box = none → g.box = some (.vec [x, y, z]) → a.box = some ![x, y, z]) ∧
    (∀ q, s.box = none → g.box = some (.num q) → a.box = some ![q, q, q]) ∧
    (∀ x y z, g.los = some (.vec [x, y, z]) → a.los = some ![x, y, z]) ∧ (g.los = none → a.los = none) ∧
    a.rperp = g.rperp ∧ a.rpar = g.rpar ∧ a.periodic = g.periodic := by
  obtain ⟨h1, h2, h3, h4, h5, h6, _⟩ := h
  refine ⟨?_, ?_, ?_, ?_, ?_, ?_, ?_, ?_, h2, h3, h4⟩
  · intro x; rw [h1, x]; rfl
  · intro c x; rw [h1, x]; rfl
  · intro l x; rw [h1, x]; rfl
  · intro x y z hb; rw [hb] at h5; simp only [Option.some_or, fill, Except.ok.injEq] at h5; exact h5.symm
  · intro x y z hb hg; rw [hb, hg] at h5; simp only [Option.none_or, fill, Except.ok.injEq] at h5; exact h5.symm
  · intro q hb hg
    rw [hb, hg] at h5
    simp only [Option.none_or, fill, Except.ok.injEq] at h5
    rw [← h5]
    congr 1
    funext i
    match i with
    | 0 => rfl
    | 1 => rfl
    | 2 => rfl
  · intro x y z hl
    rw [hl] at h6
    simp only [checkLos] at h6
    split at h6
    · injection h6 with h6; exact h6.symm
    · cases h6
  · intro hl
    rw [hl] at h6
    simp only [checkLos, Except.ok.injEq] at h6
    exact h6.symm

/-- C112: without periodic boundaries and without a box, the box in the attributes is not a number. -/
theorem no_box (s : Source) (g : Args) (a : Attrs) (h : Accepted s g a) (hs : s.box = none) (hg : g.box = none) : a.box = none := by
  have := h.2.2.2.2.1
  rw [hs, hg] at this
  simp only [Option.none_or, fill, Except.ok.injEq] at this
  exact this.symm

/-- C112: the grid of the decomposition starts at the least first coordinate on all axes, so that it does not cover the objects: here the edges of the second axis
decrease from 10 to 2 although all second coordinates are between 1 and 2. -/
theorem grid_wrong (e : Env) (h2 : Bounds.splitSize3d e.cbrt e.sqrt 1 = (1, 1, 1)) :
    grid e [[![10, 1, 10], ![20, 2, 20]]] = some [[10, 20], [10, 2], [10, 20]] := by
  have l0 : lowHigh [[![10, 1, 10], ![20, 2, 20]]] 0 = some (10, 20) := by decide +kernel
  have l1 : lowHigh [[![10, 1, 10], ![20, 2, 20]]] 1 = some (1, 2) := by decide +kernel
  have l2 : lowHigh [[![10, 1, 10], ![20, 2, 20]]] 2 = some (10, 20) := by decide +kernel
  unfold grid
  rw [l0, l1, l2]
  simp only [List.length_cons, List.length_nil, Nat.zero_add, h2]
  decide +kernel

end NBK.CgmObj
