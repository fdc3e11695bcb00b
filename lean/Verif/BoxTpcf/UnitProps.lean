import Verif.BoxTpcf.ValueProps

set_option linter.unusedSimpArgs false

/-! C140: units of length, lines of sight; boxes that contradict each other. -/
namespace NBK.BoxTpcf
open NBK PcfObj

/-- A particle with its position in another unit. -/
def stretch (c : ℚ) (p : Part) : Part := { p with pos := ⟨c * p.pos.x, c * p.pos.y, c * p.pos.z⟩ }

theorem pairsIn_stretch {L c : ℚ} (hL : 0 < L) (hc : 0 < c) {D D' : Pos → Pos → ℚ} (hD : IsDist2 L D) (hD' : IsDist2 (c * L) D') (a b : ℚ) (X Y : List Part) :
    pairsIn D' (c * a) (c * b) (X.map (stretch c)) (Y.map (stretch c)) = pairsIn D a b X Y := by
  unfold pairsIn
  rw [List.map_map]
  congr 1
  apply List.map_congr_left
  intro p _
  simp only [Function.comp, List.map_map]
  congr 1
  apply List.map_congr_left
  intro q _
  have e : D' (stretch c p).pos (stretch c q).pos = c ^ 2 * D p.pos q.pos := by
    rw [dist2_eq hL hD, dist2_eq (mul_pos hc hL) hD']
    simp only [stretch, diff2_scale true L _ _ c hc (fun _ => hL)]
    ring
  have hc2 : 0 < c ^ 2 := by positivity
  simp only [Function.comp, e, mul_pow, mul_le_mul_iff_right₀ hc2, mul_lt_mul_iff_right₀ hc2]
  rfl

/-- C140: the correlation function of a catalog in a periodic cube depends on ratios of lengths only: positions, box and edges in another unit of
length give the same values, along any line of sight and on any ranks. -/
theorem auto_unit {P P' : Nat} {C C' : Nat → Cat} (hP : ∀ i, (C i).rows.length = P) (hP' : ∀ i, (C' i).rows.length = P') {E : Env} {root root' : ℚ → ℚ}
    {mach mach' : Nat → Option Nat → Mach} (hm : ∀ i j, (mach i j).Good P) (hm' : ∀ i j, (mach' i j).Good P') {kw kw' : Kw} {g g' : Args} {L c : ℚ} {l l' : Int}
    (hc : 0 < c) (h : Cube C kw g L l) (h' : Cube C' kw' g' (c * L) l') (hd : g.data2 = none) (hd' : g'.data2 = none)
    (hs : g.bins.edges.Pairwise (· ≤ ·)) (he : g'.bins.edges = g.bins.edges.map (c * ·)) (hpi : E.pi ≠ 0)
    (hall : (C' g'.data1).all = (C g.data1).all.map (stretch c))
    (hW : (((C g.data1).all.map Part.w).sum ^ 2 - ((C g.data1).all.map fun p => p.w ^ 2).sum) ≠ 0)
    (o o' : Tpcf) (ho : tpcf E root mach kw C g = .ok o) (ho' : tpcf E root' mach' kw' C' g' = .ok o') (i : Nat) (a b : ℚ)
    (h1 : g.bins.edges[i]? = some a) (h2 : g.bins.edges[i + 1]? = some b) (hab : a ≠ b) :
    ∃ v, (columnOf o.corr "corr")[i]? = some (.fin v) ∧ (columnOf o'.corr "corr")[i]? = some (.fin v) := by
  have hL := h.side
  obtain ⟨D, hD⟩ := dist2_exists L hL
  obtain ⟨D', hD'⟩ := dist2_exists (c * L) h'.side
  have hs' : g'.bins.edges.Pairwise (· ≤ ·) := by
    rw [he, List.pairwise_map]
    exact hs.imp fun hxy => mul_le_mul_of_nonneg_left hxy hc.le
  have hW' : (((C' g'.data1).all.map Part.w).sum ^ 2 - ((C' g'.data1).all.map fun p => p.w ^ 2).sum) =
      (((C g.data1).all.map Part.w).sum ^ 2 - ((C g.data1).all.map fun p => p.w ^ 2).sum) := by
    rw [hall, List.map_map, List.map_map]
    rfl
  have e1 := auto_value hP hm h hd hs hD _ rfl _ rfl hW _ rfl hpi o ho i a b h1 h2 hab
  have e2 := auto_value hP' hm' h' hd' hs' hD' _ rfl _ rfl (by rw [hW']; exact hW) _ rfl hpi o' ho' i (c * a) (c * b) (by rw [he, List.getElem?_map, h1]; rfl)
    (by rw [he, List.getElem?_map, h2]; rfl) (fun h => hab (mul_left_cancel₀ hc.ne' h))
  refine ⟨_, e1, ?_⟩
  rw [e2, hW', hall, pairsIn_stretch hL hc hD hD', List.length_map]
  have : 4 / 3 * E.pi * ((c * b) ^ 3 - (c * a) ^ 3) / (c * L) ^ 3 = 4 / 3 * E.pi * (b ^ 3 - a ^ 3) / L ^ 3 := by
    rw [show 4 / 3 * E.pi * ((c * b) ^ 3 - (c * a) ^ 3) = c ^ 3 * (4 / 3 * E.pi * (b ^ 3 - a ^ 3)) by ring, show (c * L) ^ 3 = c ^ 3 * L ^ 3 by ring,
      mul_div_mul_left _ _ (pow_ne_zero 3 hc.ne')]
  rw [this]

/-- C140: catalogs whose boxes differ are refused with `ValueError`, and so is a keyword `BoxSize` that differs from those. -/
theorem boxes_differ (los : BoxPairs.Los) (periodic : Bool) (arg : Option Pos) (b : PcfObj.Bins) (c d : Cat) (b1 b2 : Pos) (h1 : c.box = some b1)
    (h2 : d.box = some b2) (hne : b1 ≠ b2 ∨ ∃ x, arg = some x ∧ x ≠ b1) : checks los periodic arg b c d = .error .valueError := by
  have : boxSize c d arg = .error .valueError := by
    unfold boxSize
    rw [h1, h2]
    simp only [Option.getD_some]
    split
    · rfl
    · by_cases h12 : b1 ≠ b2
      · rw [if_pos h12]
      · rw [if_neg h12]
        rcases hne with h | ⟨x, rfl, hx⟩
        · exact absurd h h12
        · simp [Ne.symm hx]
  unfold checks
  cases BoxPairs.parseLos los with
  | error _ => rfl
  | ok l =>
    simp only
    rw [this]
    rfl

/-- C140: the keyword is used where a catalog has no box; without both there is nothing to count. -/
theorem keyword_box (c d : Cat) (x : Pos) (hx : x ≠ ⟨0, 0, 0⟩) (h : c.box = none ∨ d.box = none) : boxSize c d (some x) = .ok x ∧
    (c.box = none → boxSize c d none = .error .valueError) ∧ (c.box = some x → boxSize c d none = .ok x) := by
  refine ⟨?_, ?_, ?_⟩
  · unfold boxSize
    simp only [Option.getD_some, hx, if_false]
    rcases h with h | h
    · rw [h]
    · rw [h]
      cases c.box <;> rfl
  · intro h
    unfold boxSize
    simp [h]
  · intro hc
    rcases h with h | h
    · rw [h] at hc; cases hc
    · unfold boxSize
      rw [hc, h]
      simp [hx]

/-! ### Particles of weight zero among data with randoms -/

theorem tallyS_append_left {A : Type} (f : A → A → Option Nat) (g : A → A → ℚ) (X Z Y : List A) (k : Nat) :
    tallyS f g (X ++ Z) Y k = tallyS f g X Y k + tallyS f g Z Y k := by
  simp [tallyS]

theorem tallyS_append_right {A : Type} (f : A → A → Option Nat) (g : A → A → ℚ) (X Y Z : List A) (k : Nat) :
    tallyS f g X (Y ++ Z) k = tallyS f g X Y k + tallyS f g X Z k := by
  unfold tallyS
  induction X with
  | nil => simp
  | cons x X ih =>
    rw [List.map_cons, List.sum_cons, ih]
    simp only [List.map_cons, List.sum_cons, List.map_append, List.sum_append]
    ring

theorem tallyS_zero_left (f : Part → Part → Option Nat) (Z Y : List Part) (hZ : ∀ p ∈ Z, p.w = 0) (k : Nat) :
    tallyS f (fun p q => p.w * q.w) Z Y k = 0 := by
  unfold tallyS
  apply sum_zero
  intro p hp
  apply sum_zero
  intro q _
  simp [hZ p hp]

theorem tallyS_zero_right (f : Part → Part → Option Nat) (Y Z : List Part) (hZ : ∀ p ∈ Z, p.w = 0) (k : Nat) :
    tallyS f (fun p q => p.w * q.w) Y Z k = 0 := by
  unfold tallyS
  apply sum_zero
  intro p _
  apply sum_zero
  intro q hq
  simp [hZ q hq]

/-- Two counts with the same weighted pairs. -/
def SameW (x x' : Count) : Prop := x'.total = x.total ∧ x'.rows.map Prod.snd = x.rows.map Prod.snd

theorem total_zero (X Z : List Part) (hZ : ∀ p ∈ Z, p.w = 0) : total (X ++ Z) none = total X none ∧
    ∀ (Y W : List Part), (∀ p ∈ W, p.w = 0) → total (X ++ Z) (some (Y ++ W)) = total X (some Y) := by
  have hs : ∀ Z : List Part, (∀ p ∈ Z, p.w = 0) → (Z.map Part.w).sum = 0 := fun Z hZ => sum_zero Part.w Z hZ
  have hs2 : (Z.map fun p => p.w ^ 2).sum = 0 := sum_zero _ Z fun p hp => by simp [hZ p hp]
  refine ⟨?_, fun Y W hW => ?_⟩
  · simp only [total, Option.elim_none, List.map_append, List.sum_append, hs Z hZ, hs2, add_zero]
  · simp only [total, Option.elim_some, List.map_append, List.sum_append, hs Z hZ, hs W hW, add_zero]

/-- Particles of weight zero do not change the weighted pairs. -/
theorem direct_zero (root : ℚ → ℚ) (l : Int) (per : Bool) (box : Pos) (b : PcfObj.Bins) (X Z : List Part) (hZ : ∀ p ∈ Z, p.w = 0) :
    (∀ same, SameW (direct root l per box b X none same) (direct root l per box b (X ++ Z) none same)) ∧
    SameW (direct root l per box b X (some X) true) (direct root l per box b (X ++ Z) (some (X ++ Z)) true) ∧
    ∀ (Y W : List Part), (∀ p ∈ W, p.w = 0) →
      SameW (direct root l per box b X (some Y) false) (direct root l per box b (X ++ Z) (some (Y ++ W)) false) := by
  have hr : ∀ (Y W : List Part), (∀ p ∈ W, p.w = 0) → ∀ k, tallyS (bin0 l per box b) (fun p q => p.w * q.w) (X ++ Z) (Y ++ W) k =
      tallyS (bin0 l per box b) (fun p q => p.w * q.w) X Y k := by
    intro Y W hW k
    rw [tallyS_append_left, tallyS_append_right, tallyS_zero_left _ Z _ hZ, tallyS_zero_right _ X W hW, add_zero, add_zero]
  refine ⟨fun same => ⟨?_, ?_⟩, ⟨?_, ?_⟩, fun Y W hW => ⟨?_, ?_⟩⟩
  · simp only [direct, ite_self]
    exact (total_zero X Z hZ).1
  · simp only [direct, tally, Option.getD_none, List.map_map]
    exact List.map_congr_left fun k _ => hr X Z hZ k
  · simp only [direct, if_true]
    exact (total_zero X Z hZ).1
  · simp only [direct, tally, Option.getD_some, List.map_map]
    exact List.map_congr_left fun k _ => hr X Z hZ k
  · simp only [direct, Bool.false_eq_true, if_false]
    exact (total_zero X Z hZ).2 Y W hW
  · simp only [direct, tally, Option.getD_some, List.map_map]
    exact List.map_congr_left fun k _ => hr Y W hW k

/-- A catalog with particles of weight zero added. -/
structure Padded (c c' : Cat) : Prop where
  box : c'.box = c.box
  rows : ∃ Z, (∀ p ∈ Z, p.w = 0) ∧ c'.all = c.all ++ Z

theorem Padded.refl (c : Cat) : Padded c c := ⟨rfl, [], by simp, by simp⟩

/-- The counts of catalogs with such particles have the same weighted pairs, or the same error. -/
theorem count_padded {P : Nat} {C C' : Nat → Cat} (hP : ∀ i, (C i).rows.length = P) (hP' : ∀ i, (C' i).rows.length = P) {E : Env} {root : ℚ → ℚ}
    {mach : Nat → Option Nat → Mach} (hm : ∀ i j, (mach i j).Good P) {kw : Kw} {g : Args} (ha : g.bins.mode ≠ "angular") (hpad : ∀ i, Padded (C i) (C' i))
    (i : Nat) (j : Option Nat) (x x' : Count) (hx : (envOf E root mach kw C g).count .box g.bins i j = .ok x)
    (hx' : (envOf E root mach kw C' g).count .box g.bins i j = .ok x') : SameW x x' := by
  unfold envOf at hx hx'
  simp only [ha, ne_eq, not_false_eq_true, and_self, if_true] at hx hx'
  cases hbx : boxArg g.box with
  | error e => rw [hbx] at hx; cases hx
  | ok box =>
    rw [hbx] at hx hx'
    simp only [Except.bind] at hx hx'
    rw [count_eq root (mach i j) P (hm _ _) _ _ _ box g.bins ha (C i) _ _ (hP i)] at hx
    rw [count_eq root (mach i j) P (hm _ _) _ _ _ box g.bins ha (C' i) _ _ (hP' i)] at hx'
    have e1 : (j.map C').getD (C' i) = C' (j.getD i) := by cases j <;> rfl
    have e2 : (j.map C).getD (C i) = C (j.getD i) := by cases j <;> rfl
    have hch : checks kw.los ((periodicOf g).getD false) box g.bins (C' i) (C' (j.getD i)) =
        checks kw.los ((periodicOf g).getD false) box g.bins (C i) (C (j.getD i)) := by
      unfold checks boxSize
      rw [(hpad i).box, (hpad (j.getD i)).box]
    rw [e2] at hx
    rw [e1, hch] at hx'
    cases hc : checks kw.los ((periodicOf g).getD false) box g.bins (C i) (C (j.getD i)) with
    | error e => rw [hc] at hx; cases hx
    | ok lb =>
      rw [hc] at hx hx'
      simp only [Except.bind] at hx hx'
      split at hx
      · cases hx
      · rename_i hn
        rw [if_neg hn] at hx'
        cases hx
        cases hx'
        obtain ⟨-, Z, hZ, hall⟩ := hpad i
        obtain ⟨d1, d2, d3⟩ := direct_zero root lb.1 ((periodicOf g).getD false) lb.2 g.bins (C i).all Z hZ
        rw [hall]
        cases j with
        | none => exact d1 _
        | some j =>
          by_cases hji : j = i
          · subst hji
            simp only [Option.map_some, decide_true, hall]
            exact d2
          · have : decide (some j = some i) = false := by simpa using hji
            rw [this]
            obtain ⟨-, W, hW, hall'⟩ := hpad j
            simp only [Option.map_some, hall']
            exact d3 (C j).all W hW

/-- The estimate depends on the weighted pairs of data with data and randoms only. -/
theorem ls_sameW (tDD tDR tRD tRR : ℚ) (a a' b b' c c' d : List (Nat × ℚ)) (ha : a'.map Prod.snd = a.map Prod.snd) (hb : b'.map Prod.snd = b.map Prod.snd)
    (hc : c'.map Prod.snd = c.map Prod.snd) :
    ((a'.zip (b'.zip (c'.zip d))).map fun p => Estim.lsBin tDD tDR tRD tRR p.1.2 p.2.1.2 p.2.2.1.2 p.2.2.2) =
      (a.zip (b.zip (c.zip d))).map fun p => Estim.lsBin tDD tDR tRD tRR p.1.2 p.2.1.2 p.2.2.1.2 p.2.2.2 := by
  have ga : ∀ (l l' : List (Nat × ℚ)), l'.map Prod.snd = l.map Prod.snd → l'.length = l.length ∧ ∀ i (h1 : i < l'.length) (h2 : i < l.length), l'[i].2 = l[i].2 := by
    intro l l' h
    have hl : l'.length = l.length := by simpa using congrArg List.length h
    refine ⟨hl, fun i h1 h2 => ?_⟩
    have := congrArg (fun l : List ℚ => l[i]?) h
    simpa [h1, h2] using this
  obtain ⟨la, ga'⟩ := ga a a' ha
  obtain ⟨lb, gb'⟩ := ga b b' hb
  obtain ⟨lc, gc'⟩ := ga c c' hc
  apply List.ext_getElem
  · simp only [List.length_map, List.length_zip, la, lb, lc]
  · intro i h1 h2
    simp only [List.length_map, List.length_zip, lt_min_iff] at h1 h2
    simp only [List.getElem_map, List.getElem_zip]
    rw [ga' i h1.1 h2.1, gb' i h1.2.1 h2.2.1, gc' i h1.2.2.1 h2.2.2.1]

/-- Surroundings with the same weighted pairs of the data and the same random pairs give the same values of the correlation function. -/
theorem ls_sameW_env (e e' : Env) (g : Args) (r1 : Nat) (hr : g.randoms1 = some r1)
    (hcp : ∀ i j x x', e.count (counterOf g) g.bins i j = .ok x → e'.count (counterOf g) g.bins i j = .ok x' → SameW x x')
    (hrr : e'.count (counterOf g) g.bins r1 (some (g.randoms2.getD r1)) = e.count (counterOf g) g.bins r1 (some (g.randoms2.getD r1)))
    (o o' : Tpcf) (ho : new e g = .ok o) (ho' : new e' g = .ok o') : columnOf o'.corr "corr" = columnOf o.corr "corr" := by
  obtain ⟨q, h0, -, -, -, -, -, hcorr, -⟩ := run_of_new ho
  obtain ⟨q', h0', -, -, -, -, -, hcorr', -⟩ := run_of_new ho'
  rw [hcorr, hcorr']
  have hna : ¬ isAnalytic g = true := by simp [isAnalytic, hr]
  unfold runBase at h0 h0'
  rw [if_neg hna, hr] at h0 h0'
  simp only at h0 h0'
  unfold runLS at h0 h0'
  dsimp only at h0 h0'
  have hrp : randomPairs e' g r1 (g.randoms2.getD r1) = randomPairs e g r1 (g.randoms2.getD r1) := by
    unfold randomPairs counted
    rw [hrr]
  rw [hrp] at h0'
  cases h1 : randomPairs e g r1 (g.randoms2.getD r1) with
  | error er => rw [h1] at h0; cases h0
  | ok rr =>
  rw [h1] at h0 h0'
  simp only [Except.bind] at h0 h0'
  cases h2 : counted e (counterOf g) g.bins g.data1 g.data2 with
  | error er => rw [h2] at h0; cases h0
  | ok dd =>
  rw [h2] at h0
  cases h2' : counted e' (counterOf g) g.bins g.data1 g.data2 with
  | error er => rw [h2'] at h0'; cases h0'
  | ok dd' =>
  rw [h2'] at h0'
  simp only at h0 h0'
  cases h3 : counted e (counterOf g) g.bins g.data1 (some (g.randoms2.getD r1)) with
  | error er => rw [h3] at h0; cases h0
  | ok dr =>
  rw [h3] at h0
  cases h3' : counted e' (counterOf g) g.bins g.data1 (some (g.randoms2.getD r1)) with
  | error er => rw [h3'] at h0'; cases h0'
  | ok dr' =>
  rw [h3'] at h0'
  simp only at h0 h0'
  have cs : ∀ i j y y', counted e (counterOf g) g.bins i j = .ok y → counted e' (counterOf g) g.bins i j = .ok y' → SameW y.1 y'.1 := by
    intro i j y y' hy hy'
    obtain ⟨_, _, _, _, _, k, -⟩ := counted_std hy
    obtain ⟨_, _, _, _, _, k', -⟩ := counted_std hy'
    exact hcp _ _ _ _ k k'
  cases h4 : secondPairs e g r1 dr with
  | error er => rw [h4] at h0; cases h0
  | ok rd =>
  rw [h4] at h0
  cases h4' : secondPairs e' g r1 dr' with
  | error er => rw [h4'] at h0'; cases h0'
  | ok rd' =>
  rw [h4'] at h0'
  simp only at h0 h0'
  have hrd : SameW rd.1 rd'.1 := by
    unfold secondPairs at h4 h4'
    cases hd : g.data2 with
    | none =>
      rw [hd] at h4 h4'
      cases h4; cases h4'
      exact cs _ _ _ _ h3 h3'
    | some d =>
      rw [hd] at h4 h4'
      exact cs _ _ _ _ h4 h4'
  have hdd := cs _ _ _ _ h2 h2'
  have hdr := cs _ _ _ _ h3 h3'
  split at h0
  · cases h0
  split at h0'
  · cases h0'
  obtain ⟨md, de, -, k2, k3, -⟩ := counted_std h2
  obtain ⟨md', de', -, k2', k3', -⟩ := counted_std h2'
  split at h0
  · cases h0
  rename_i cf hcf
  split at h0'
  · cases h0'
  rename_i cf' hcf'
  obtain ⟨-, c2, -⟩ := corr_std k3 hcf
  obtain ⟨-, c2', -⟩ := corr_std k3' hcf'
  rw [← Except.ok.inj h0, ← Except.ok.inj h0']
  dsimp only
  rw [columnOf, columnOf, c2, c2']
  simp only [List.find?_cons, decide_true, Option.elim_some]
  rw [hdd.1, hdr.1, hrd.1, ls_sameW _ _ _ _ _ _ _ _ _ _ _ hdd.2 hdr.2 hrd.2]

/-- C140: with randoms, data of weight zero do not count: the values of the correlation function are those without them. (The mean separations of the
data pairs may differ.) -/
theorem ls_zero_weight {P : Nat} {C C' : Nat → Cat} (hP : ∀ i, (C i).rows.length = P) (hP' : ∀ i, (C' i).rows.length = P) {E : Env} {root : ℚ → ℚ}
    {mach : Nat → Option Nat → Mach} (hm : ∀ i j, (mach i j).Good P) {kw : Kw} {g : Args} (hk : g.kind = .sim) (ha : g.bins.mode ≠ "angular")
    (hpad : ∀ i, Padded (C i) (C' i)) (r1 : Nat) (hr : g.randoms1 = some r1) (hsame : C' r1 = C r1 ∧ C' (g.randoms2.getD r1) = C (g.randoms2.getD r1))
    (o o' : Tpcf) (ho : tpcf E root mach kw C g = .ok o) (ho' : tpcf E root mach kw C' g = .ok o') :
    columnOf o'.corr "corr" = columnOf o.corr "corr" := by
  have hct : counterOf g = .box := by simp [counterOf, periodicOf, hk]
  obtain ⟨e, he⟩ : ∃ e, e = envOf E root mach kw C g := ⟨_, rfl⟩
  obtain ⟨e', he'⟩ : ∃ e', e' = envOf E root mach kw C' g := ⟨_, rfl⟩
  have hcp : ∀ i j x x', e.count .box g.bins i j = .ok x → e'.count .box g.bins i j = .ok x' → SameW x x' := by
    intro i j x x' hx hx'
    rw [he] at hx
    rw [he'] at hx'
    exact count_padded hP hP' hm ha hpad i j x x' hx hx'
  have hrr : e'.count .box g.bins r1 (some (g.randoms2.getD r1)) = e.count .box g.bins r1 (some (g.randoms2.getD r1)) := by
    rw [he, he']
    unfold envOf
    simp only [Option.map_some, hsame.1, hsame.2]
  unfold tpcf at ho ho'
  rw [← he] at ho
  rw [← he'] at ho'
  exact ls_sameW_env e e' g r1 hr (by rw [hct]; exact hcp) (by rw [hct]; exact hrr) o o' ho ho'

end NBK.BoxTpcf
