import Verif.FftObj.PolesProps

/-!
# Properties of `FFTPower` (C107): a larger `kmax` adds rows and changes none
-/
set_option linter.unusedSimpArgs false
set_option synthInstance.maxSize 1000
namespace NBK.FftObj
open NBK

theorem arange_le (a b b' d : ℚ) (hd : 0 < d) (hb : b ≤ b') : (arange a b d).length ≤ (arange a b' d).length := by
  by_contra hc
  push Not at hc
  have := (arange_length a b d hd (arange a b' d).length).mp hc
  exact absurd ((arange_length a b' d hd (arange a b' d).length).mpr (by linarith)) (lt_irrefl _)

theorem arange_prefix (a b b' d : ℚ) (hd : 0 < d) (hb : b ≤ b') : arange a b d <+: arange a b' d := by
  have hl := arange_le a b b' d hd hb
  rw [List.prefix_iff_eq_take]
  apply List.ext_getElem
  · rw [List.length_take]; omega
  · intro i h1 h2
    rw [List.getElem_take, arange_get, arange_get]

theorem inBin_prefix (l l' : List ℚ) (h : l <+: l') (i : Nat) (hi : i + 1 < l.length) (v : ℚ) : Project.InBin l i v ↔ Project.InBin l' i v := by
  obtain ⟨t, rfl⟩ := h
  unfold Project.InBin
  rw [List.getElem?_append_left (by omega), List.getElem?_append_left (by omega)]

open Classical in
theorem row_same (modes : List (List (List Project.Mode))) (hg : GoodModes modes) (a b b' d : ℚ) (hd : 0 < d) (ha : 0 ≤ a) (hb : b ≤ b') (N : Nat) (hN : 0 < N)
    (poles : List Nat) (i j : Nat) (hi : i + 1 < (arange a b d).length) (hj : j < N) :
    Project.result2d true ((arange a b d).map (· ^ 2)) (muEdges .power N) modes poles i j =
      Project.result2d true ((arange a b' d).map (· ^ 2)) (muEdges .power N) modes poles i j := by
  have hle : ∀ m ∈ Project.modes modes, ∀ e, (muEdges .power N).getLast? = some e → m.mu ≤ e := by
    intro m hm e he
    rw [(mu_last N hN).1] at he; cases he
    exact (hg m hm).2.2.2
  have hl := arange_le a b b' d hd hb
  rw [Project.project_2d_partial true _ _ (arange_sq a b d hd ha) (mu_sorted N hN) modes hle poles i j (by simpa using hi) (by rw [muEdges_length]; omega),
    Project.project_2d_partial true _ _ (arange_sq a b' d hd ha) (mu_sorted N hN) modes hle poles i j (by rw [List.length_map]; omega) (by rw [muEdges_length]; omega)]
  have : ((Project.modes modes).filter fun m => decide (Project.InBin ((arange a b d).map (· ^ 2)) i m.x2 ∧ Project.InMuBin (muEdges .power N) j m.mu)) =
      (Project.modes modes).filter fun m => decide (Project.InBin ((arange a b' d).map (· ^ 2)) i m.x2 ∧ Project.InMuBin (muEdges .power N) j m.mu) := by
    apply List.filter_congr
    intro m _
    rw [decide_eq_decide, inBin_prefix _ _ ((arange_prefix a b b' d hd hb).map _) i (by simpa using hi)]
  rw [this]

theorem pole_row_same (modes : List (List (List Project.Mode))) (hg : GoodModes modes) (a b b' d : ℚ) (hd : 0 < d) (ha : 0 ≤ a) (hb : b ≤ b') (N : Nat) (hN : 0 < N)
    (poles : List Nat) (i : Nat) (hi : i + 1 < (arange a b d).length) :
    Project.result1d true ((arange a b d).map (· ^ 2)) (muEdges .power N) modes poles i =
      Project.result1d true ((arange a b' d).map (· ^ 2)) (muEdges .power N) modes poles i := by
  have hl := arange_le a b b' d hd hb
  unfold Project.result1d
  dsimp only
  simp only [mu_sum modes hg a b d hd ha ((arange a b d).length - 1) N (by omega) hN _ i (by omega),
    mu_sum modes hg a b' d hd ha ((arange a b' d).length - 1) N (by omega) hN _ i (by omega)]

/-- A column with fewer rows. -/
def Shorter (c c' : Binned.Col) : Prop := c.name = c'.name ∧ c.int = c'.int ∧ c.vals <+: c'.vals

theorem map_prefix {α β : Type} (l l' : List α) (h : l <+: l') (f g : α → β) (hf : ∀ x ∈ l, f x = g x) : l.map f <+: l'.map g := by
  rw [List.map_congr_left hf]
  exact h.map g

theorem range_prefix (n m : Nat) (h : n ≤ m) : List.range n <+: List.range m := by
  obtain ⟨k, rfl⟩ := Nat.exists_eq_add_of_le h
  rw [List.range_add]
  exact List.prefix_append _ _

theorem pairs_prefix (n m N : Nat) (h : n ≤ m) : pairs n N <+: pairs m N := by
  obtain ⟨t, ht⟩ := range_prefix n m h
  unfold pairs
  rw [← ht, List.flatMap_append]
  exact List.prefix_append _ _

theorem statData_cut (modes : List (List (List Project.Mode))) (hg : GoodModes modes) (a b b' d : ℚ) (hd : 0 < d) (ha : 0 ≤ a) (hb : b ≤ b') (N : Nat) (hN : 0 < N)
    (oneD : Bool) (poles : List Nat) : List.Forall₂ Shorter (statData .power oneD (arange a b d) (muEdges .power N) modes poles)
      (statData .power oneD (arange a b' d) (muEdges .power N) modes poles) := by
  have hl := arange_le a b b' d hd hb
  have key : ∀ {β : Type} (f : Option ℚ × Option ℚ × Option ℚ × Option ℚ × ℚ → β),
      (((pairs ((arange a b d).length - 1) ((muEdges .power N).length - 1)).map fun p =>
        Project.result2d true ((arange a b d).map (· ^ 2)) (muEdges .power N) modes poles p.1 p.2).map f) <+:
      (((pairs ((arange a b' d).length - 1) ((muEdges .power N).length - 1)).map fun p =>
        Project.result2d true ((arange a b' d).map (· ^ 2)) (muEdges .power N) modes poles p.1 p.2).map f) := by
    intro β f
    apply List.IsPrefix.map
    apply map_prefix _ _ (pairs_prefix _ _ _ (by omega))
    rintro ⟨i, j⟩ hp
    unfold pairs at hp
    simp only [List.mem_flatMap, List.mem_map, List.mem_range, Prod.mk.injEq] at hp
    obtain ⟨i', hi, j', hj, rfl, rfl⟩ := hp
    rw [muEdges_length] at hj
    exact row_same modes hg a b b' d hd ha hb N hN poles _ _ (by omega) (by omega)
  unfold statData statCols
  dsimp only
  cases oneD
  · refine List.Forall₂.cons ⟨rfl, rfl, key _⟩ (List.Forall₂.cons ⟨rfl, rfl, key _⟩ (List.Forall₂.cons ⟨rfl, rfl, ?_⟩ (List.Forall₂.cons ⟨rfl, rfl, ?_⟩
      (List.Forall₂.cons ⟨rfl, rfl, key _⟩ List.Forall₂.nil))))
    · exact (key _).map _
    · exact (key _).map _
  · refine List.Forall₂.cons ⟨rfl, rfl, key _⟩ (List.Forall₂.cons ⟨rfl, rfl, ?_⟩ (List.Forall₂.cons ⟨rfl, rfl, ?_⟩
      (List.Forall₂.cons ⟨rfl, rfl, key _⟩ List.Forall₂.nil)))
    · exact (key _).map _
    · exact (key _).map _

theorem poleData_cut (modes : List (List (List Project.Mode))) (hg : GoodModes modes) (a b b' d : ℚ) (hd : 0 < d) (ha : 0 ≤ a) (hb : b ≤ b') (N : Nat) (hN : 0 < N)
    (poles : List Nat) : List.Forall₂ Shorter (poleData .power (arange a b d) (muEdges .power N) modes poles)
      (poleData .power (arange a b' d) (muEdges .power N) modes poles) := by
  have hl := arange_le a b b' d hd hb
  have key : ∀ {β : Type} (f : Option ℚ × List (Option ℚ × Option ℚ) × ℚ → β),
      (((List.range ((arange a b d).length - 1)).map fun i => Project.result1d true ((arange a b d).map (· ^ 2)) (muEdges .power N) modes poles i).map f) <+:
      (((List.range ((arange a b' d).length - 1)).map fun i => Project.result1d true ((arange a b' d).map (· ^ 2)) (muEdges .power N) modes poles i).map f) := by
    intro β f
    apply List.IsPrefix.map
    apply map_prefix _ _ (range_prefix _ _ (by omega))
    intro i hi
    rw [List.mem_range] at hi
    exact pole_row_same modes hg a b b' d hd ha hb N hN poles i (by omega)
  have mid : ∀ (l : List Nat) (f g : Nat → Nat → List Binned.Col), (∀ p x, List.Forall₂ Shorter (f p x) (g p x)) →
      List.Forall₂ Shorter (l.mapIdx f).flatten (l.mapIdx g).flatten := by
    intro l
    induction l with
    | nil => intro f g _; exact List.Forall₂.nil
    | cons x l ih =>
      intro f g h
      rw [List.mapIdx_cons, List.mapIdx_cons, List.flatten_cons, List.flatten_cons]
      exact List.rel_append (h 0 x) (ih _ _ fun p y => h (p + 1) y)
  unfold poleData
  dsimp only
  apply List.rel_append
  · apply List.rel_append
    · exact List.Forall₂.cons ⟨rfl, rfl, key _⟩ List.Forall₂.nil
    · apply mid
      intro p x
      unfold statCols
      dsimp only
      exact List.Forall₂.cons ⟨rfl, rfl, (key _).map _⟩ (List.Forall₂.cons ⟨rfl, rfl, (key _).map _⟩ List.Forall₂.nil)
  · exact List.Forall₂.cons ⟨rfl, rfl, key _⟩ List.Forall₂.nil

/-- C107: two calls with bins of one width that differ only in `kmax`: the edges with the smaller one are the first edges with the larger one, and every column of
the power and of the multipoles begins with the rows of the smaller one. -/
theorem kmax_cuts (e : Env) (first : Src) (second : Option Src) (g : Args) (d b b' : ℚ) (hdx : g.dx = some d) (hd : 0 < d) (ha : 0 ≤ g.xmin) (hb : b ≤ b')
    (hN : 0 < g.Nmu) (hg : ∀ m1 m2, castBoth g.box g.nmesh first second = .ok (m1, m2) → GoodModes (e.stat3d .power m1.nmesh m1.src m2.src)) (o o' : Obj)
    (h : new e .power first second { g with xmax := some b } = .ok o) (h' : new e .power first second { g with xmax := some b' } = .ok o') :
    (∃ ed ed' : List ℚ, o.stat.edges.head? = some ed ∧ o'.stat.edges.head? = some ed' ∧ ed <+: ed') ∧ List.Forall₂ Shorter o.stat.data o'.stat.data ∧
    ∀ p p', o.poles = some (some p) → o'.poles = some (some p') → List.Forall₂ Shorter p.data p'.data := by
  obtain ⟨hm, los, l1, l2, l3, m1, m2, hc, hr⟩ := (new_eq e .power first second _ o).mp h
  obtain ⟨hm', los', l1', l2', l3', m1', m2', hc', hr'⟩ := (new_eq e .power first second _ o').mp h'
  have e1 : los' = los := Option.some.inj (l1'.symm.trans l1)
  have e2 : (Except.ok (m1', m2') : Except Err (Mesh × Mesh)) = .ok (m1, m2) := hc'.symm.trans hc
  cases e1; cases e2
  have hgood := hg m1 m2 hc
  obtain ⟨ed, cs, hbn, hne, hnd, hpos, rfl⟩ := run_ok e .power _ m1 m2 hm o hr
  obtain ⟨ed', cs', hbn', hne', hnd', hpos', rfl⟩ := run_ok e .power _ m1 m2 hm' o' hr'
  have hdx1 : g.dx.getD (dxDefault e .power m1.box m1.nmesh) = d := by rw [hdx]; rfl
  have x1 : ed = arange g.xmin b d := by
    rw [xBins_pos e .power _ _ (by unfold inAttrs; dsimp only; rw [hdx1]; exact hd)] at hbn
    unfold inAttrs at hbn
    dsimp only at hbn
    rw [hdx1] at hbn
    exact (Prod.mk.inj (Except.ok.inj hbn)).1.symm
  have x2 : ed' = arange g.xmin b' d := by
    rw [xBins_pos e .power _ _ (by unfold inAttrs; dsimp only; rw [hdx1]; exact hd)] at hbn'
    unfold inAttrs at hbn'
    dsimp only at hbn'
    rw [hdx1] at hbn'
    exact (Prod.mk.inj (Except.ok.inj hbn')).1.symm
  subst x1; subst x2
  have hu : 0 < (if g.mode = "1d" then 1 else g.Nmu) := by split_ifs <;> omega
  have hs := statData_cut _ hgood g.xmin b b' d hd ha hb _ hu (decide (g.mode = "1d")) ((g.poles.getD []).map Int.toNat)
  have hp := poleData_cut _ hgood g.xmin b b' d hd ha hb _ hu ((g.poles.getD []).map Int.toNat)
  refine ⟨⟨arange g.xmin b d, arange g.xmin b' d, ?_, ?_, arange_prefix _ _ _ _ hd hb⟩, ?_, ?_⟩
  · unfold outStat
    dsimp only
    split_ifs <;> rfl
  · unfold outStat
    dsimp only
    split_ifs <;> rfl
  · unfold outStat inAttrs usedNmu
    dsimp only
    split_ifs with hmode
    · simp only [hmode, if_true] at hs ⊢; exact hs
    · simp only [hmode, if_false] at hs ⊢; exact hs
  · intro p p' hp1 hp2
    have f1 := Option.some.inj hp1
    have f2 := Option.some.inj hp2
    unfold outPoles at f1 f2
    dsimp only at f1 f2
    split_ifs at f1
    split_ifs at f2
    have g1 := Option.some.inj f1
    have g2 := Option.some.inj f2
    subst g1; subst g2
    exact hp

/-- The arguments of the case up to `kmax`. -/
def upTo (b : ℚ) : Args := { mode := "1d", dx := some 1, xmax := some b, poles := some [2] }

/-- C107: the hypotheses of `kmax_cuts` hold: the table up to 4 and that up to 3, which has a row less. -/
theorem cut_case :
    ((new env .power cat none (upTo 4)).toOption.map fun o => (numbers o.stat, o.poles.map fun p => p.map numbers)) =
      some ([("k", [0, 1, 2]), ("power.real", [0, 4, 6]), ("power.imag", [0, 0, 0]), ("modes", [1, 1, 2])],
        some (some [("k", [0, 1, 2]), ("power_2.real", [0, 20, -15 / 4]), ("power_2.imag", [0, 0, 0]), ("modes", [1, 1, 2])])) ∧
    ((new env .power cat none (upTo 3)).toOption.map fun o => (numbers o.stat, o.poles.map fun p => p.map numbers)) =
      some ([("k", [0, 1]), ("power.real", [0, 4]), ("power.imag", [0, 0]), ("modes", [1, 1])],
        some (some [("k", [0, 1]), ("power_2.real", [0, 20]), ("power_2.imag", [0, 0]), ("modes", [1, 1])])) ∧
    GoodModes (env.stat3d .power [8, 8, 8] 0 0) := by
  refine ⟨by decide +kernel, by decide +kernel, ?_⟩
  unfold GoodModes
  decide +kernel

end NBK.FftObj
