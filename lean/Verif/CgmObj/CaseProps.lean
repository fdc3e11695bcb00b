import Verif.CgmObj.ObjProps

/-!
# Concrete cases for `CylindricalGroups`
-/
set_option linter.unusedSimpArgs false
namespace NBK.CgmObj
open NBK

/-- A world with one rank. -/
def oneEnv : Env where
  srt key l := l.mergeSort fun x y => decide (key x ≤ key y)
  desc key l := l.mergeSort fun x y => decide (key y ≤ key x)
  emptyCall := true
  cbrt _ := 1
  sqrt _ := 1
  own pos _ := [List.range pos.flatten.length]
  held pos _ _ := [List.range pos.flatten.length]

/-- It does what is asked for, whatever the objects. -/
theorem one_world (s : Source) (a : Attrs) : World oneEnv s a where
  srt := Sort.contract_mergeSort
  desc := ⟨fun _ _ => List.mergeSort_perm _ _, fun key l => by
    have := List.pairwise_mergeSort (le := fun x y : Nat × Nat => decide (key y ≤ key x))
      (fun a b c h1 h2 => by simp only [decide_eq_true_eq] at *; omega)
      (fun a b => by simp only [Bool.or_eq_true, decide_eq_true_eq]; omega) l
    exact this.imp fun h => by simpa using h⟩
  split pos edges hp _ := by
    have hl : pos.flatten.length = s.all.length := by rw [hp.length_eq, List.length_map]
    refine ⟨⟨rfl, ?_, ?_, ?_, ?_⟩, .inl rfl⟩
    · show ([List.range pos.flatten.length]).flatten.Perm _
      rw [hl]; simp
    · intro h hh j hj
      have : h = List.range pos.flatten.length := by simpa [oneEnv] using hh
      rw [this, List.mem_range] at hj
      omega
    · intro h hh
      have : h = List.range pos.flatten.length := by simpa [oneEnv] using hh
      rw [this]; exact List.nodup_range
    · intro oh hoh i hi j hj _
      have : oh = (List.range pos.flatten.length, List.range pos.flatten.length) := by simpa [oneEnv] using hoh
      rw [this]
      exact List.mem_range.mpr (by omega)

/-- Three objects: the first two are within one cylinder across the boundary of a periodic box of side 10, the third is far away. -/
def three : Source where
  ranks := [[⟨![1 / 2, 5, 5], fun _ => ⟨false, 7⟩⟩, ⟨![19 / 2, 5, 6], fun _ => ⟨false, 3⟩⟩, ⟨![5, 5, 5], fun _ => ⟨false, 5⟩⟩]]
  hard := ["Position", "Mass"]
  over := []
  dtype _ := .f8
  box := some (.num 10)

def threeArgs (r : RankBy) : Args where
  rankby := r
  rperp := 2
  rpar := 3 / 2
  los := some (.vec [0, 0, 1])
  periodic := true

def threeAttrs (r : RankBy) : Attrs := ⟨rankList r, 2, 3 / 2, some ![0, 0, 1], true, some fun _ => 10⟩

theorem three_accepted (r : RankBy) : Accepted three (threeArgs r) (threeAttrs r) := by
  refine ⟨rfl, rfl, rfl, rfl, rfl, ?_, fun _ => by simp [three]⟩
  show checkLos (some (.vec [0, 0, 1])) = _
  unfold checkLos
  dsimp only
  rw [if_pos (by show |(0 * 0 + 0 * 0 + 1 * 1 - 1 : ℚ)| ≤ _; norm_num)]
  rfl

theorem three_pair (r : RankBy) : InCylinder (threeAttrs r).los (threeAttrs r).used (threeAttrs r).rperp (threeAttrs r).rpar (three.posOf 0) (three.posOf 1) ∧
    InCylinder (threeAttrs r).los (threeAttrs r).used (threeAttrs r).rperp (threeAttrs r).rpar (three.posOf 1) (three.posOf 0) := by
  have hb : ∀ p q : Nat, p < 2 → q < 2 → ∀ L, (threeAttrs r).used = some L → ∀ i, 0 < L i ∧ |three.posOf p i - three.posOf q i| < L i := by
    intro p q hp hq L hL i
    obtain rfl : (fun _ => 10) = L := Option.some.inj hL
    refine ⟨by norm_num, ?_⟩
    match p, q, i with
    | 0, 0, 0 | 0, 0, 1 | 0, 0, 2 | 0, 1, 0 | 0, 1, 1 | 0, 1, 2 | 1, 0, 0 | 1, 0, 1 | 1, 0, 2 | 1, 1, 0 | 1, 1, 1 | 1, 1, 2 => decide +kernel
  rw [← valid_iff _ _ _ (hb 0 1 (by omega) (by omega)), ← valid_iff _ _ _ (hb 1 0 (by omega) (by omega))]
  have v1 : valid (threeAttrs .none) (three.posOf 0) (three.posOf 1) = true := by decide +kernel
  have v2 : valid (threeAttrs .none) (three.posOf 1) (three.posOf 0) = true := by decide +kernel
  exact ⟨v1, v2⟩

theorem three_groups (r : RankBy) (hr : r = .none ∨ r = .name "Mass") :
    ∃ o s' prio central host, new oneEnv three (threeArgs r) = (.ok o, s') ∧ o.attrs = threeAttrs r ∧ Grouped (threeAttrs r) three prio central host o.groups.flatten ∧
      o.groups.map List.length = [3] := by
  obtain ⟨o, s', prio, central, host, h1, h2, h3, h4, -⟩ := groups_partial oneEnv three (threeArgs r) (threeAttrs r) (three_accepted r) (one_world _ _) (by decide)
    (by rcases hr with rfl | rfl <;> simp [threeAttrs, rankList])
    (by
      rcases hr with rfl | rfl
      · simp [threeAttrs, rankList]
      · simp [threeAttrs, rankList, three, Source.columns])
    (by
      intro k _ _ x hx
      simp only [three, Source.all, List.flatten_cons, List.flatten_nil, List.append_nil, List.mem_cons, List.not_mem_nil, or_false] at hx
      rcases hx with rfl | rfl | rfl <;> rfl)
    (by simp [three]) (by simp [three])
    (by
      intro L hL i x hx
      obtain rfl : (fun _ => 10) = L := Option.some.inj hL
      simp only [three, Source.all, List.flatten_cons, List.flatten_nil, List.append_nil, List.mem_cons, List.not_mem_nil, or_false] at hx
      rcases hx with rfl | rfl | rfl <;> (match i with | 0 | 1 | 2 => decide +kernel))
    (by simp [threeAttrs]) (by simp [three])
  exact ⟨o, s', prio, central, host, h1, h2, h3, h4⟩

/-- C112: without a ranking the last object of a pair is the central, not the first. -/
theorem last_wins : ∃ o s' r0 r1, new oneEnv three (threeArgs .none) = (.ok o, s') ∧ o.groups.flatten[0]? = some r0 ∧ o.groups.flatten[1]? = some r1 ∧
    r0.type = 1 ∧ r1.type = 0 ∧ r1.haloid = r0.haloid ∧ r1.nsats = 1 := by
  obtain ⟨o, s', prio, central, host, h1, h2, h3, h4⟩ := three_groups .none (.inl rfl)
  have hn : three.all.length = 3 := rfl
  have hp : ∀ i < 3, prio i = i := fun i hi => h3.order rfl i (by rw [hn]; exact hi)
  have far : ¬ InCylinder (threeAttrs .none).los (threeAttrs .none).used (threeAttrs .none).rperp (threeAttrs .none).rpar (three.posOf 1) (three.posOf 2) := by
    rw [← valid_iff]
    · decide +kernel
    · intro L hL i
      obtain rfl : (fun _ => 10) = L := Option.some.inj hL
      refine ⟨by norm_num, ?_⟩
      match i with | 0 | 1 | 2 => decide +kernel
  have far0 : ¬ InCylinder (threeAttrs .none).los (threeAttrs .none).used (threeAttrs .none).rperp (threeAttrs .none).rpar (three.posOf 0) (three.posOf 2) := by
    rw [← valid_iff]
    · decide +kernel
    · intro L hL i
      obtain rfl : (fun _ => 10) = L := Option.some.inj hL
      refine ⟨by norm_num, ?_⟩
      match i with | 0 | 1 | 2 => decide +kernel
  have c1 : central 1 = true := by
    rw [h3.centrals 1 (by decide)]
    intro j hj hlt hin
    rw [hn] at hj
    rw [hp 1 (by omega), hp j hj] at hlt
    obtain rfl : j = 2 := by omega
    exact absurd hin far
  have c0 : central 0 = false := by
    cases hc : central 0 with
    | false => rfl
    | true =>
      have := (h3.centrals 0 (by decide)).mp hc 1 (by decide) (by rw [hp 0 (by omega), hp 1 (by omega)]; omega) (three_pair .none).1
      rw [c1] at this; exact this
  obtain ⟨q1, q2, q3, q4, q5⟩ := h3.hosts 0 (by decide) c0
  have hh : host 0 = 1 := by
    have e1 : host 0 < 3 := q1
    have : host 0 ≠ 2 := by intro h; rw [h] at q3; exact far0 q3
    have : host 0 ≠ 0 := by intro h; rw [h, c0] at q2; cases q2
    omega
  have c2 : central 2 = true := by
    rw [h3.centrals 2 (by decide)]
    intro j hj hlt
    rw [hn] at hj
    rw [hp 2 (by omega), hp j hj] at hlt
    omega
  have r0 := h3.satellite_row 0 (by decide) c0
  have r1 := h3.central_row 1 (by decide) c1
  rw [hh] at r0
  refine ⟨o, s', _, _, h1, r0, r1, rfl, rfl, rfl, ?_⟩
  have : List.range three.all.length = [0, 1, 2] := rfl
  simp only [this]
  simp [c0, c1, c2, hh]

/-- An object at the origin. -/
def atOrigin : Source where
  ranks := [[⟨![0, 0, 0], fun _ => ⟨false, 1⟩⟩]]
  hard := ["Position"]
  over := ["origind"]
  dtype _ := .f8

/-- C112: without a fixed line of sight, an object at the origin gets the label -1, as it is not even paired with itself. The column `origind` of the source is lost. -/
theorem origin_lost : ∃ o s', new oneEnv atOrigin { rankby := .none, rperp := 1, rpar := 1 } = (.ok o, s') ∧ o.groups = [[⟨some (-1), 0, 0⟩]] ∧ o.attrs.box = none ∧
    s'.columns = ["Position"] := by
  refine ⟨_, _, rfl, by decide +kernel, rfl, by decide +kernel⟩

end NBK.CgmObj
