import Verif.SurvTpcf.CaseProps
import Verif.BoxTpcf.GridProps
import Mathlib.Tactic.IntervalCases

set_option linter.unusedSimpArgs false

/-! C141: when the projected correlation function of a survey is made, and its values. -/
noncomputable section
namespace NBK.SurvTpcf

theorem sized_env {P : Nat} {C : Nat → Cat} (hP : ∀ i, (C i).length = P) {E : PcfObj.Env} (rat : ℝ → ℚ) {mach : Nat → Option Nat → Mach} {k : Kw}
    (hm : ∀ i j, (mach i j).Good P k.factor) {b : Bins} (hE : PcfObj.Sized E b) {md : Pairs.Mode}
    (hck : Pairs.checkArgs b.mode b.edges b.Nmu b.pimax = .ok md) (hmd : b.mode = "projected") {pm : ℚ} (hp : b.pimax = some pm) (hp1 : 1 ≤ pm) :
    PcfObj.Sized (envOf E rat mach k C) b := by
  intro c i j x hx dims edges hst
  by_cases hc : c = .survey
  · have n1 : ¬ ("projected" = "1d") := by decide
    have n2 : ¬ ("projected" = "2d") := by decide
    have n3 : ¬ ("projected" = "angular") := by decide
    simp only [envOf] at hx
    rw [if_pos hc, count_eq rat (mach i j) P k (hm i j) b hck (fun h => by rw [hmd] at h; exact absurd h n3) (C i) _ _ (hP i)] at hx
    split at hx
    · cases hx
    rw [if_neg (by rw [hmd]; exact fun hh => n2 hh.1)] at hx
    have hst' : PcfObj.stateBins b = .ok (["rp", "pi"], [b.edges, PcfObj.linspace 0 pm (⌊pm⌋.toNat + 1)]) := by
      simp only [PcfObj.stateBins, hmd, hp, n1, n2, if_true, if_false, PcfObj.floor_succ pm (by linarith)]
    rw [hst'] at hst
    obtain ⟨-, rfl⟩ := Prod.mk.inj (Except.ok.inj hst)
    have hnb : nbins b = (b.edges.length - 1) * ⌊pm⌋.toNat := by
      have hmode : modeOf b = .projected ((pm : ℚ) : ℝ) := by simp [modeOf, hmd, hp]
      unfold nbins
      rw [hmode]
      simp only [SurvPairs.Mode.second, Option.getD_some, Rat.floor_cast]
    have hpr : (([b.edges, PcfObj.linspace 0 pm (⌊pm⌋.toNat + 1)] : List (List ℚ)).map fun e => e.length - 1).prod = nbins b := by
      rw [hnb]
      simp [PcfObj.linspace]
    rw [hpr, ← Except.ok.inj hx]
    simp [direct, BoxTpcf.tally]
  · simp only [envOf] at hx
    rw [if_neg hc] at hx
    exact hE c i j x hx dims edges hst

/-- C141: in the mode 'projected' a correlation function with randoms is made exactly if `pimax` is at least 2. -/
theorem made_projected {P : Nat} {C : Nat → Cat} (hP : ∀ i, (C i).length = P) (E : PcfObj.Env) (rat : ℝ → ℚ) {mach : Nat → Option Nat → Mach} {k : Kw}
    (hm : ∀ i j, (mach i j).Good P k.factor) {g : PcfObj.Args} (hs : PcfObj.counterOf g = .survey) (hE : PcfObj.Sized E g.bins) {md : Pairs.Mode}
    (hck : Pairs.checkArgs g.bins.mode g.bins.edges g.bins.Nmu g.bins.pimax = .ok md) (hc : k.cosmo.isSome) (hmd : g.bins.mode = "projected") (pm : ℚ)
    (hp : g.bins.pimax = some pm) (h2 : 2 ≤ g.bins.edges.length) (r : Nat) (h1 : g.randoms1 = some r) (hR : g.R1R2 = none) :
    (∃ o, tpcf E rat mach k C g = .ok o) ↔ 2 ≤ pm := by
  have n2 : ¬ ("projected" = "2d") := by decide
  have n3 : ¬ ("projected" = "angular") := by decide
  have hp1 : 1 ≤ pm := ((Pairs.checkArgs_iff _ _ _ _).mp ⟨md, hck⟩).2.2.2.2.2 pm hp
  obtain ⟨w1, w2⟩ := PcfObj.wp_spec (envOf E rat mach k C) g (sized_env hP rat hm hE hck hmd hp hp1) (fun o ho => by rw [hR] at ho; cases ho) hmd pm hp h2
  constructor
  · rintro ⟨o, ho⟩
    by_contra hlt
    exact w1 (not_le.mp hlt) o ho
  · intro h
    obtain ⟨q, hq⟩ := base_made hP E rat hm hs (fun h => by rw [hmd] at h; exact absurd h n3) hck (.inr hc) (by rw [hmd]; exact fun hh => n2 hh.1) r h1 hR
    obtain ⟨w, hw, -⟩ := w2 q hq h
    exact ⟨_, hw⟩

/-- C141: the projected correlation function is twice the depth of the bins along the line of sight times the sum of the correlation function in them. -/
theorem wp_value {P : Nat} {C : Nat → Cat} (hP : ∀ i, (C i).length = P) (E : PcfObj.Env) (rat : ℝ → ℚ) {mach : Nat → Option Nat → Mach} {k : Kw}
    (hm : ∀ i j, (mach i j).Good P k.factor) {g : PcfObj.Args} (hE : PcfObj.Sized E g.bins) {md : Pairs.Mode}
    (hck : Pairs.checkArgs g.bins.mode g.bins.edges g.bins.Nmu g.bins.pimax = .ok md) (hmd : g.bins.mode = "projected") (pm : ℚ)
    (hp : g.bins.pimax = some pm) (n : Nat) (hn : n = ⌊pm⌋.toNat) (hR : g.R1R2 = none) (o : PcfObj.Tpcf) (ho : tpcf E rat mach k C g = .ok o)
    (i : Nat) (hi : i + 1 < g.bins.edges.length) (v : Nat → ℚ) (hv : ∀ j < n, (PcfObj.columnOf o.corr "corr")[i * n + j]? = some (.fin (v j))) :
    ∃ w, o.wp = some (some w) ∧ (PcfObj.columnOf w "corr")[i]? = some (.fin (2 * (pm / n) * ((List.range n).map v).sum)) := by
  have hp1 : 1 ≤ pm := ((Pairs.checkArgs_iff _ _ _ _).mp ⟨md, hck⟩).2.2.2.2.2 pm hp
  exact (BoxTpcf.wp_of_bins _ g (sized_env hP rat hm hE hck hmd hp hp1) (fun o ho => by rw [hR] at ho; cases ho) hmd pm hp n hn o ho i hi v hv).2

/-- Separations across the mean line of sight in `[x, y)` and along it in `[u, v)`. -/
def Tube (d : Option (ℝ → ℝ)) (x y u v : ℝ) (p q : Obj) : Prop :=
  (x ≤ SurvPairs.perp (SurvPairs.cartesian d p) (SurvPairs.cartesian d q) ∧ SurvPairs.perp (SurvPairs.cartesian d p) (SurvPairs.cartesian d q) < y) ∧
    u ≤ SurvPairs.los (SurvPairs.cartesian d p) (SurvPairs.cartesian d q) ∧ SurvPairs.los (SurvPairs.cartesian d p) (SurvPairs.cartesian d q) < v

/-- What is asked of a projected auto-correlation with one sample of randoms. -/
structure Projected (C : Nat → Cat) (g : PcfObj.Args) (r : Nat) (pm : ℚ) (D R : List Obj) (WD VD WR VR : ℚ) : Prop where
  counter : PcfObj.counterOf g = .survey
  mode : g.bins.mode = "projected"
  pimax : g.bins.pimax = some pm
  data2 : g.data2 = none
  randoms1 : g.randoms1 = some r
  randoms2 : g.randoms2 = none
  given : g.R1R2 = none
  ne : g.data1 ≠ r
  sorted : g.bins.edges.Pairwise (· < ·)
  data : D = (C g.data1).flatten
  randoms : R = (C r).flatten
  wd : WD = (D.map SurvPairs.Obj.weight).sum
  vd : VD = (D.map fun p => p.weight ^ 2).sum
  wr : WR = (R.map SurvPairs.Obj.weight).sum
  vr : VR = (R.map fun p => p.weight ^ 2).sum
  dd : WD ^ 2 - VD ≠ 0
  dr : WD * WR ≠ 0

/-- The estimate of Landy and Szalay from the pairs `S`. -/
def lsOf (S : Obj → Obj → Prop) (D R : List Obj) (WD VD WR VR : ℚ) : ℚ :=
  ((WR ^ 2 - VR) / (WD ^ 2 - VD) * pairsWith S D D - 2 * ((WR ^ 2 - VR) / (WD * WR) * pairsWith S D R)) / pairsWith S R R + 1

/-- C141: **the projected correlation function of a survey** in the bin of separations `[x, y)` across and `[j, j+1) * pimax/n` along the line of sight. -/
theorem ls_projected {P : Nat} {C : Nat → Cat} (hP : ∀ i, (C i).length = P) (E : PcfObj.Env) (rat : ℝ → ℚ) {mach : Nat → Option Nat → Mach} {k : Kw}
    (hm : ∀ i j, (mach i j).Good P k.factor) {g : PcfObj.Args} {r : Nat} {pm : ℚ} {D R : List Obj} {WD VD WR VR : ℚ} (h : Projected C g r pm D R WD VD WR VR)
    (n : Nat) (hn : n = ⌊pm⌋.toNat) (o : PcfObj.Tpcf) (ho : tpcf E rat mach k C g = .ok o) (i j : Nat) (hj : j < n) (x y : ℚ)
    (hx : g.bins.edges[i]? = some x) (hy : g.bins.edges[i + 1]? = some y) (hrr : ∃ p ∈ R, ∃ q ∈ R, Tube k.cosmo x y (pm * j / n) (pm * (j + 1) / n) p q)
    (hRR : pairsWith (Tube k.cosmo x y (pm * j / n) (pm * (j + 1) / n)) R R ≠ 0) :
    (PcfObj.columnOf o.corr "corr")[i * n + j]? = some (.fin (lsOf (Tube k.cosmo x y (pm * j / n) (pm * (j + 1) / n)) D R WD VD WR VR)) := by
  have n3 : ¬ ("projected" = "angular") := by decide
  obtain ⟨md, hck⟩ := accepted_of_new h.counter ho
  have hp1 : 1 ≤ pm := ((Pairs.checkArgs_iff _ _ _ _).mp ⟨md, hck⟩).2.2.2.2.2 pm h.pimax
  have hmode : modeOf g.bins = .projected ((pm : ℚ) : ℝ) := by simp [modeOf, h.mode, h.pimax]
  have hlt : i * n + j < nbins g.bins := by
    unfold nbins
    rw [hmode]
    simp only [SurvPairs.Mode.second, Option.getD_some, Rat.floor_cast]
    rw [← hn]
    exact BoxTpcf.bin_lt _ _ _ _ (BoxTpcf.lt_of_next hy) hj
  have hpos : ∀ o, posOf k g.bins o = SurvPairs.cartesian k.cosmo o := fun o => by
    simp [posOf, distOf, hmode, SurvPairs.Mode.isAngular]
  refine ls_value hP E rat hm h.counter (fun hh => by rw [h.mode] at hh; exact absurd hh n3) r h.data2 h.randoms1 h.randoms2 h.given h.ne (i * n + j) hlt _ (fun p q => ?_) D R h.data
    h.randoms WD VD WR VR h.wd h.vd h.wr h.vr h.dd h.dr hrr hRR o ho
  rw [bin_projected k h.mode h.pimax hp1 hn h.sorted hj hx hy, hpos, hpos]
  rfl

/-- C141: **the values of `wp`** of a survey: twice the depth of the bins along the line of sight times the sum of the estimates in them. -/
theorem ls_wp {P : Nat} {C : Nat → Cat} (hP : ∀ i, (C i).length = P) (E : PcfObj.Env) (hE : ∀ b, PcfObj.Sized E b) (rat : ℝ → ℚ) {mach : Nat → Option Nat → Mach} {k : Kw}
    (hm : ∀ i j, (mach i j).Good P k.factor) {g : PcfObj.Args} {r : Nat} {pm : ℚ} {D R : List Obj} {WD VD WR VR : ℚ} (h : Projected C g r pm D R WD VD WR VR)
    (n : Nat) (hn : n = ⌊pm⌋.toNat) (o : PcfObj.Tpcf) (ho : tpcf E rat mach k C g = .ok o) (i : Nat) (x y : ℚ)
    (hx : g.bins.edges[i]? = some x) (hy : g.bins.edges[i + 1]? = some y)
    (hrr : ∀ j < n, ∃ p ∈ R, ∃ q ∈ R, Tube k.cosmo x y (pm * j / n) (pm * (j + 1) / n) p q)
    (hRR : ∀ j < n, pairsWith (Tube k.cosmo x y (pm * j / n) (pm * (j + 1) / n)) R R ≠ 0) :
    ∃ w, o.wp = some (some w) ∧ (PcfObj.columnOf w "corr")[i]? =
      some (.fin (2 * (pm / n) * ((List.range n).map fun j : Nat => lsOf (Tube k.cosmo x y (pm * j / n) (pm * (j + 1) / n)) D R WD VD WR VR).sum)) := by
  obtain ⟨md, hck⟩ := accepted_of_new h.counter ho
  exact wp_value hP E rat hm (hE _) hck h.mode pm h.pimax n hn h.given o ho i (by have := BoxTpcf.lt_of_next hy; omega) _
    (fun j hj => ls_projected hP E rat hm h n hn o ho i j hj x y hx hy (hrr j hj) (hRR j hj))

/-! ## A case -/

def argsP (pm : ℚ) : PcfObj.Args := { kind := .survey, bins := ⟨"projected", [1, 3, 5], none, some pm⟩, data1 := 0, randoms1 := some 1 }

/-- Surroundings as asked for. -/
theorem sized_exists : ∃ E : PcfObj.Env, ∀ b, PcfObj.Sized E b :=
  ⟨{ PcfObj.env0 with count := fun _ _ _ _ => .error .valueError }, fun _ _ _ _ _ hx => by cases hx⟩

/-- With `pimax` 2 it is made, with 3/2 not. -/
theorem case_made (E : PcfObj.Env) (hE : ∀ b, PcfObj.Sized E b) (rat : ℝ → ℚ) :
    (∃ o, tpcf E rat mach2 kw2 cats (argsP 2) = .ok o) ∧ ¬ ∃ o, tpcf E rat mach2 kw2 cats (argsP (3 / 2)) = .ok o := by
  refine ⟨(made_projected (k := kw2) cats_ranks E rat good2 (g := argsP 2) rfl (hE _) (md := .projected) (by decide +kernel) rfl rfl 2 rfl (by decide) 1 rfl rfl).2 le_rfl, ?_⟩
  rw [made_projected (k := kw2) cats_ranks E rat good2 (g := argsP (3 / 2)) rfl (hE _) (md := .projected) (by decide +kernel) rfl rfl (3 / 2) rfl (by decide) 1 rfl rfl]
  norm_num

/-- Galaxies and randoms in two directions at right angles, at distances 3 and 4. -/
def corner (i : Nat) : Cat :=
  if i = 0 then [[onEquator 0 3 1], [onEquator 90 4 1]]
  else [[onEquator 0 3 1, onEquator 90 3 1], [onEquator 90 4 1]]

theorem corner_ranks (i : Nat) : (corner i).length = 2 := by
  unfold corner
  split <;> rfl

def kwI : Kw := { cosmo := some fun z => z }

theorem at0 (a : ℝ) (w : ℚ) : SurvPairs.cartesian kwI.cosmo (onEquator 0 a w) = ⟨a, 0, 0⟩ := by
  simp only [SurvPairs.cartesian, kwI, onEquator, Sky.skyToUnitSphere, if_true, Sky.deg2rad]
  ext <;> simp [HSMul.hSMul, SMul.smul]

theorem at90 (a : ℝ) (w : ℚ) : SurvPairs.cartesian kwI.cosmo (onEquator 90 a w) = ⟨0, a, 0⟩ := by
  have h : Sky.deg2rad 90 = Real.pi / 2 := by unfold Sky.deg2rad; ring
  simp only [SurvPairs.cartesian, kwI, onEquator, Sky.skyToUnitSphere, if_true, h]
  ext <;> simp [HSMul.hSMul, SMul.smul, Sky.deg2rad]

theorem sep_right (a b c d e f : ℝ) : SurvPairs.sep ⟨a, b, c⟩ ⟨d, e, f⟩ ^ 2 = (a - d) ^ 2 + (b - e) ^ 2 + (c - f) ^ 2 ∧
    SurvPairs.los ⟨a, b, c⟩ ⟨d, e, f⟩ = |(a - d) * (a + d) + (b - e) * (b + e) + (c - f) * (c + f)| / Real.sqrt ((a + d) ^ 2 + (b + e) ^ 2 + (c + f) ^ 2) := by
  refine ⟨?_, rfl⟩
  show Real.sqrt ((a - d) ^ 2 + (b - e) ^ 2 + (c - f) ^ 2) ^ 2 = _
  rw [Real.sq_sqrt (by positivity)]

theorem perp_of {a b : Sky.Vec} {s l : ℝ} (hs : SurvPairs.sep a b ^ 2 = s) (hl : SurvPairs.los a b = l) (t : ℝ) (ht : 0 ≤ t) (h : s - l ^ 2 = t ^ 2) : SurvPairs.perp a b = t := by
  unfold SurvPairs.perp
  rw [hs, hl, h, Real.sqrt_sq ht]

theorem sqrt18 : (3 : ℝ) ≤ Real.sqrt 18 ∧ Real.sqrt 18 < 5 :=
  ⟨Real.le_sqrt' (by norm_num) |>.mpr (by norm_num), (Real.sqrt_lt' (by norm_num)).mpr (by norm_num)⟩

/-- Separations `(perp, los)` of the objects in the case. -/
theorem same_place (v : Sky.Vec) : SurvPairs.perp v v = 0 := by
  obtain ⟨a, b, c⟩ := v
  obtain ⟨h1, h2⟩ := sep_right a b c a b c
  refine perp_of (l := 0) h1 ?_ 0 le_rfl (by ring)
  rw [h2]
  simp

theorem above (a b : ℝ) (h : 0 < a + b) : SurvPairs.perp ⟨0, a, 0⟩ ⟨0, b, 0⟩ = 0 := by
  obtain ⟨h1, h2⟩ := sep_right 0 a 0 0 b 0
  refine perp_of h1 h2 0 le_rfl ?_
  have e1 : Real.sqrt ((0 + 0) ^ 2 + (a + b) ^ 2 + (0 + 0) ^ 2) = a + b := by
    rw [show ((0 : ℝ) + 0) ^ 2 + (a + b) ^ 2 + (0 + 0) ^ 2 = (a + b) ^ 2 by ring, Real.sqrt_sq h.le]
  rw [e1, div_pow, sq_abs]
  have := h.ne'
  field_simp
  ring

theorem three_three : SurvPairs.los ⟨3, 0, 0⟩ ⟨0, 3, 0⟩ = 0 ∧ SurvPairs.perp ⟨3, 0, 0⟩ ⟨0, 3, 0⟩ = Real.sqrt 18 ∧
    SurvPairs.los ⟨0, 3, 0⟩ ⟨3, 0, 0⟩ = 0 ∧ SurvPairs.perp ⟨0, 3, 0⟩ ⟨3, 0, 0⟩ = Real.sqrt 18 := by
  obtain ⟨h1, h2⟩ := sep_right 3 0 0 0 3 0
  obtain ⟨h3, h4⟩ := sep_right 0 3 0 3 0 0
  have l1 : SurvPairs.los ⟨3, 0, 0⟩ ⟨0, 3, 0⟩ = 0 := by rw [h2]; norm_num
  have l2 : SurvPairs.los ⟨0, 3, 0⟩ ⟨3, 0, 0⟩ = 0 := by rw [h4]; norm_num
  exact ⟨l1, perp_of h1 l1 _ (Real.sqrt_nonneg _) (by rw [Real.sq_sqrt (by norm_num)]; norm_num), l2,
    perp_of h3 l2 _ (Real.sqrt_nonneg _) (by rw [Real.sq_sqrt (by norm_num)]; norm_num)⟩

theorem three_four : SurvPairs.los ⟨3, 0, 0⟩ ⟨0, 4, 0⟩ = 7 / 5 ∧ SurvPairs.perp ⟨3, 0, 0⟩ ⟨0, 4, 0⟩ = 24 / 5 ∧
    SurvPairs.los ⟨0, 4, 0⟩ ⟨3, 0, 0⟩ = 7 / 5 ∧ SurvPairs.perp ⟨0, 4, 0⟩ ⟨3, 0, 0⟩ = 24 / 5 := by
  obtain ⟨h1, h2⟩ := sep_right 3 0 0 0 4 0
  obtain ⟨h3, h4⟩ := sep_right 0 4 0 3 0 0
  have q : ∀ t : ℝ, t = 25 → Real.sqrt t = 5 := fun t ht => by rw [ht, show (25 : ℝ) = 5 ^ 2 by norm_num, Real.sqrt_sq (by norm_num)]
  have l1 : SurvPairs.los ⟨3, 0, 0⟩ ⟨0, 4, 0⟩ = 7 / 5 := by
    rw [h2, q _ (by norm_num), show ((3 : ℝ) - 0) * (3 + 0) + (0 - 4) * (0 + 4) + (0 - 0) * (0 + 0) = -7 by norm_num, abs_neg, abs_of_pos (by norm_num : (0 : ℝ) < 7)]
  have l2 : SurvPairs.los ⟨0, 4, 0⟩ ⟨3, 0, 0⟩ = 7 / 5 := by
    rw [h4, q _ (by norm_num), show ((0 : ℝ) - 3) * (0 + 3) + (4 - 0) * (4 + 0) + (0 - 0) * (0 + 0) = 7 by norm_num, abs_of_pos (by norm_num : (0 : ℝ) < 7)]
  exact ⟨l1, perp_of h1 l1 _ (by norm_num) (by norm_num), l2, perp_of h3 l2 _ (by norm_num) (by norm_num)⟩

/-- **The value of `wp`** of the galaxies for separations from 3 to 5: the estimates are 0 and 2 in the bins along the line of sight. -/
theorem case_wp (E : PcfObj.Env) (hE : ∀ b, PcfObj.Sized E b) (rat : ℝ → ℚ) :
    ∃ o w, tpcf E rat mach2 kwI corner (argsP 2) = .ok o ∧ o.wp = some (some w) ∧ (PcfObj.columnOf w "corr")[1]? = some (.fin 4) := by
  have hfl : ⌊(2 : ℚ)⌋.toNat = 2 := by decide +kernel
  obtain ⟨o, ho⟩ := (made_projected (k := kwI) corner_ranks E rat good2 (g := argsP 2) rfl (hE _) (md := .projected) (by decide +kernel) rfl rfl 2 rfl (by decide) 1 rfl rfl).2 le_rfl
  have hw : ∀ a z w, (onEquator a z w).weight = w := fun _ _ _ => rfl
  have hproj : Projected corner (argsP 2) 1 2 [onEquator 0 3 1, onEquator 90 4 1] [onEquator 0 3 1, onEquator 90 3 1, onEquator 90 4 1] 2 2 3 3 :=
    ⟨rfl, rfl, rfl, rfl, rfl, rfl, rfl, by decide, by show List.Pairwise (· < ·) [1, 3, (5 : ℚ)]; decide +kernel, rfl, rfl, by simp [hw]; norm_num, by simp [hw]; norm_num,
      by simp [hw]; norm_num, by simp [hw]; norm_num, by norm_num, by norm_num⟩
  obtain ⟨t1, t2, t3, t4⟩ := three_three
  obtain ⟨f1, f2, f3, f4⟩ := three_four
  obtain ⟨r1, r2⟩ := sqrt18
  -- which pairs are in which of the two bins
  have T0 : ∀ u v : ℝ, u = 0 → v = 1 → ∀ p q, Tube kwI.cosmo ((3 : ℚ) : ℝ) ((5 : ℚ) : ℝ) u v p q ↔ Tube kwI.cosmo 3 5 0 1 p q := by
    rintro u v rfl rfl p q
    norm_num
  have T1 : ∀ u v : ℝ, u = 1 → v = 2 → ∀ p q, Tube kwI.cosmo ((3 : ℚ) : ℝ) ((5 : ℚ) : ℝ) u v p q ↔ Tube kwI.cosmo 3 5 1 2 p q := by
    rintro u v rfl rfl p q
    norm_num
  have zero : ∀ u v : ℝ, ∀ p q : Obj, SurvPairs.perp (SurvPairs.cartesian kwI.cosmo p) (SurvPairs.cartesian kwI.cosmo q) = 0 → ¬ Tube kwI.cosmo 3 5 u v p q := by
    rintro u v p q h ⟨⟨h1, -⟩, -⟩
    rw [h] at h1
    norm_num at h1
  have a1 : ∀ u v p, ¬ Tube kwI.cosmo 3 5 u v p p := fun u v p => zero u v p p (same_place _)
  have a2 : ∀ u v, ¬ Tube kwI.cosmo 3 5 u v (onEquator 90 3 1) (onEquator 90 4 1) := fun u v => zero _ _ _ _ (by rw [at90, at90]; exact above 3 4 (by norm_num))
  have a3 : ∀ u v, ¬ Tube kwI.cosmo 3 5 u v (onEquator 90 4 1) (onEquator 90 3 1) := fun u v => zero _ _ _ _ (by rw [at90, at90]; exact above 4 3 (by norm_num))
  have b1 : Tube kwI.cosmo 3 5 0 1 (onEquator 0 3 1) (onEquator 90 3 1) := by unfold Tube; rw [at0, at90, t1, t2]; exact ⟨⟨r1, r2⟩, by norm_num, by norm_num⟩
  have b2 : Tube kwI.cosmo 3 5 0 1 (onEquator 90 3 1) (onEquator 0 3 1) := by unfold Tube; rw [at0, at90, t3, t4]; exact ⟨⟨r1, r2⟩, by norm_num, by norm_num⟩
  have b3 : ¬ Tube kwI.cosmo 3 5 0 1 (onEquator 0 3 1) (onEquator 90 4 1) := by unfold Tube; rw [at0, at90, f1, f2]; norm_num
  have b4 : ¬ Tube kwI.cosmo 3 5 0 1 (onEquator 90 4 1) (onEquator 0 3 1) := by unfold Tube; rw [at0, at90, f3, f4]; norm_num
  have c1 : ¬ Tube kwI.cosmo 3 5 1 2 (onEquator 0 3 1) (onEquator 90 3 1) := by unfold Tube; rw [at0, at90, t1, t2]; norm_num
  have c2 : ¬ Tube kwI.cosmo 3 5 1 2 (onEquator 90 3 1) (onEquator 0 3 1) := by unfold Tube; rw [at0, at90, t3, t4]; norm_num
  have c3 : Tube kwI.cosmo 3 5 1 2 (onEquator 0 3 1) (onEquator 90 4 1) := by unfold Tube; rw [at0, at90, f1, f2]; norm_num
  have c4 : Tube kwI.cosmo 3 5 1 2 (onEquator 90 4 1) (onEquator 0 3 1) := by unfold Tube; rw [at0, at90, f3, f4]; norm_num
  have rr0 : pairsWith (Tube kwI.cosmo 3 5 0 1) [onEquator 0 3 1, onEquator 90 3 1, onEquator 90 4 1] [onEquator 0 3 1, onEquator 90 3 1, onEquator 90 4 1] = 2 := by
    simp only [pairsWith, List.map_cons, List.map_nil, List.sum_cons, List.sum_nil, a1, a2, a3, b1, b2, b3, b4, if_true, if_false, hw]; norm_num
  have rr1 : pairsWith (Tube kwI.cosmo 3 5 1 2) [onEquator 0 3 1, onEquator 90 3 1, onEquator 90 4 1] [onEquator 0 3 1, onEquator 90 3 1, onEquator 90 4 1] = 2 := by
    simp only [pairsWith, List.map_cons, List.map_nil, List.sum_cons, List.sum_nil, a1, a2, a3, c1, c2, c3, c4, if_true, if_false, hw]; norm_num
  have dd0 : pairsWith (Tube kwI.cosmo 3 5 0 1) [onEquator 0 3 1, onEquator 90 4 1] [onEquator 0 3 1, onEquator 90 4 1] = 0 := by
    simp only [pairsWith, List.map_cons, List.map_nil, List.sum_cons, List.sum_nil, a1, b3, b4, if_true, if_false, hw]; norm_num
  have dd1 : pairsWith (Tube kwI.cosmo 3 5 1 2) [onEquator 0 3 1, onEquator 90 4 1] [onEquator 0 3 1, onEquator 90 4 1] = 2 := by
    simp only [pairsWith, List.map_cons, List.map_nil, List.sum_cons, List.sum_nil, a1, c3, c4, if_true, if_false, hw]; norm_num
  have dr0 : pairsWith (Tube kwI.cosmo 3 5 0 1) [onEquator 0 3 1, onEquator 90 4 1] [onEquator 0 3 1, onEquator 90 3 1, onEquator 90 4 1] = 1 := by
    simp only [pairsWith, List.map_cons, List.map_nil, List.sum_cons, List.sum_nil, a1, a3, b1, b3, b4, if_true, if_false, hw]; norm_num
  have dr1 : pairsWith (Tube kwI.cosmo 3 5 1 2) [onEquator 0 3 1, onEquator 90 4 1] [onEquator 0 3 1, onEquator 90 3 1, onEquator 90 4 1] = 2 := by
    simp only [pairsWith, List.map_cons, List.map_nil, List.sum_cons, List.sum_nil, a1, a3, c1, c3, c4, if_true, if_false, hw]; norm_num
  have e0 : Tube kwI.cosmo ((3 : ℚ) : ℝ) ((5 : ℚ) : ℝ) (((2 : ℚ) : ℝ) * ((0 : Nat) : ℝ) / ((2 : Nat) : ℝ)) (((2 : ℚ) : ℝ) * (((0 : Nat) : ℝ) + 1) / ((2 : Nat) : ℝ)) = Tube kwI.cosmo 3 5 0 1 := by
    funext p q
    exact propext (T0 _ _ (by norm_num) (by norm_num) p q)
  have e1 : Tube kwI.cosmo ((3 : ℚ) : ℝ) ((5 : ℚ) : ℝ) (((2 : ℚ) : ℝ) * ((1 : Nat) : ℝ) / ((2 : Nat) : ℝ)) (((2 : ℚ) : ℝ) * (((1 : Nat) : ℝ) + 1) / ((2 : Nat) : ℝ)) = Tube kwI.cosmo 3 5 1 2 := by
    funext p q
    exact propext (T1 _ _ (by norm_num) (by norm_num) p q)
  obtain ⟨w, k1, k2⟩ := ls_wp corner_ranks E hE rat (k := kwI) good2 hproj 2 hfl.symm o ho 1 3 5 rfl rfl
    (fun j hj => by
      interval_cases j
      · rw [e0]; exact ⟨onEquator 0 3 1, by simp, onEquator 90 3 1, by simp, b1⟩
      · rw [e1]; exact ⟨onEquator 0 3 1, by simp, onEquator 90 4 1, by simp, c3⟩)
    (fun j hj => by
      interval_cases j
      · rw [e0, rr0]; norm_num
      · rw [e1, rr1]; norm_num)
  refine ⟨o, w, ho, k1, ?_⟩
  rw [k2]
  have hr : List.range 2 = [0, 1] := rfl
  rw [hr]
  simp only [List.map_cons, List.map_nil, List.sum_cons, List.sum_nil]
  rw [e0, e1]
  simp only [lsOf, rr0, rr1, dd0, dd1, dr0, dr1]
  norm_num

end NBK.SurvTpcf
