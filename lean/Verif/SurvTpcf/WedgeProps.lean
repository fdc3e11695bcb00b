import Verif.SurvTpcf.WpProps

set_option linter.unusedSimpArgs false

/-! C141: values of `SurveyData2PCF` in the mode '2d' (nbodykit/algorithms/paircount_tpcf/2pcf.py 243-391). -/

namespace NBK.SurvTpcf

/-- Pairs with a separation in `[x, y)` and a cosine `mu` of the angle to the line of sight in `[u, v)`. -/
def Wedge (d : Option (ℝ → ℝ)) (x y u v : ℝ) (p q : Obj) : Prop :=
  (x ≤ SurvPairs.sep (SurvPairs.cartesian d p) (SurvPairs.cartesian d q) ∧ SurvPairs.sep (SurvPairs.cartesian d p) (SurvPairs.cartesian d q) < y) ∧
    u ≤ SurvPairs.los (SurvPairs.cartesian d p) (SurvPairs.cartesian d q) / SurvPairs.sep (SurvPairs.cartesian d p) (SurvPairs.cartesian d q) ∧
    SurvPairs.los (SurvPairs.cartesian d p) (SurvPairs.cartesian d q) / SurvPairs.sep (SurvPairs.cartesian d p) (SurvPairs.cartesian d q) < v

/-- What is asked of an auto-correlation of the mode '2d' with one sample of randoms. -/
structure Wedges (C : Nat → Cat) (g : PcfObj.Args) (r n : Nat) (D R : List Obj) (WD VD WR VR : ℚ) : Prop where
  counter : PcfObj.counterOf g = .survey
  mode : g.bins.mode = "2d"
  nmu : g.bins.Nmu = some n
  data2 : g.data2 = none
  randoms1 : g.randoms1 = some r
  randoms2 : g.randoms2 = none
  given : g.R1R2 = none
  ne : g.data1 ≠ r
  sorted : g.bins.edges.Pairwise (· < ·)
  data : D = (C g.data1).flatten
  randoms : R = (C r).flatten
  wd : WD = (D.map SurvPairs.Obj.weight).sum
  vd : VD = (D.map fun p => p.weight ^ 2).sum
  wr : WR = (R.map SurvPairs.Obj.weight).sum
  vr : VR = (R.map fun p => p.weight ^ 2).sum
  dd : WD ^ 2 - VD ≠ 0
  dr : WD * WR ≠ 0

/-- C141: **the correlation function of a survey in the mode '2d'** in the bin of separations `[x, y)` and of `mu` in `[j/n, (j+1)/n)`. -/
theorem ls_2d {P : Nat} {C : Nat → Cat} (hP : ∀ i, (C i).length = P) (E : PcfObj.Env) (rat : ℝ → ℚ) {mach : Nat → Option Nat → Mach} {k : Kw}
    (hm : ∀ i j, (mach i j).Good P k.factor) {g : PcfObj.Args} {r n : Nat} {D R : List Obj} {WD VD WR VR : ℚ} (h : Wedges C g r n D R WD VD WR VR)
    (o : PcfObj.Tpcf) (ho : tpcf E rat mach k C g = .ok o) (i j : Nat) (hj : j < n) (x y : ℚ)
    (hx : g.bins.edges[i]? = some x) (hy : g.bins.edges[i + 1]? = some y) (hrr : ∃ p ∈ R, ∃ q ∈ R, Wedge k.cosmo x y ((j : ℝ) / n) (((j : ℝ) + 1) / n) p q)
    (hRR : pairsWith (Wedge k.cosmo x y ((j : ℝ) / n) (((j : ℝ) + 1) / n)) R R ≠ 0) :
    (PcfObj.columnOf o.corr "corr")[i * n + j]? = some (.fin (lsOf (Wedge k.cosmo x y ((j : ℝ) / n) (((j : ℝ) + 1) / n)) D R WD VD WR VR)) := by
  have n3 : ¬ ("2d" = "angular") := by decide
  have hmode : modeOf g.bins = .d2 n (muBin n) := by simp [modeOf, h.mode, h.nmu]
  have hlt : i * n + j < nbins g.bins := by
    unfold nbins
    rw [hmode]
    simp only [SurvPairs.Mode.second, Option.getD_some]
    exact BoxTpcf.bin_lt _ _ _ _ (BoxTpcf.lt_of_next hy) hj
  have hpos : ∀ o, posOf k g.bins o = SurvPairs.cartesian k.cosmo o := fun o => by
    simp [posOf, distOf, hmode, SurvPairs.Mode.isAngular]
  refine ls_value hP E rat hm h.counter (fun hh => by rw [h.mode] at hh; exact absurd hh n3) r h.data2 h.randoms1 h.randoms2 h.given h.ne (i * n + j) hlt _ (fun p q => ?_) D R h.data
    h.randoms WD VD WR VR h.wd h.vd h.wr h.vr h.dd h.dr hrr hRR o ho
  rw [bin_2d k h.mode h.nmu h.sorted hj hx hy, hpos, hpos]
  rfl

/-! ## A case -/

def argsW : PcfObj.Args := { kind := .survey, bins := ⟨"2d", [1, 3, 6], some 4, none⟩, data1 := 0, randoms1 := some 1 }

theorem sep_of {a b : Sky.Vec} {s : ℝ} (hs : SurvPairs.sep a b ^ 2 = s) (h0 : 0 ≤ SurvPairs.sep a b) (t : ℝ) (ht : 0 ≤ t) (h : s = t ^ 2) : SurvPairs.sep a b = t :=
  (pow_left_inj₀ h0 ht (by norm_num : 2 ≠ 0)).mp (hs.trans h)

theorem sep_nonneg (a b : Sky.Vec) : 0 ≤ SurvPairs.sep a b := Real.sqrt_nonneg _

/-- **The values** in the first two bins of `mu` for separations from 3 to 6. -/
theorem case_2d (E : PcfObj.Env) (rat : ℝ → ℚ) :
    ∃ o, tpcf E rat mach2 kwI corner argsW = .ok o ∧ (PcfObj.columnOf o.corr "corr")[4]? = some (.fin 0) ∧ (PcfObj.columnOf o.corr "corr")[5]? = some (.fin 2) := by
  obtain ⟨o, ho⟩ := made (k := kwI) corner_ranks E rat good2 (g := argsW) rfl (fun hh => absurd (show "2d" = "angular" from hh) (by decide)) (md := .d2) (by decide +kernel)
    (Or.inr rfl) (fun hh => absurd (show some 4 = some 0 from hh.2) (by decide)) (by decide) 1 rfl rfl
  have hw : ∀ a z w, (onEquator a z w).weight = w := fun _ _ _ => rfl
  have hwed : Wedges corner argsW 1 4 [onEquator 0 3 1, onEquator 90 4 1] [onEquator 0 3 1, onEquator 90 3 1, onEquator 90 4 1] 2 2 3 3 :=
    ⟨rfl, rfl, rfl, rfl, rfl, rfl, rfl, by decide, by show List.Pairwise (· < ·) [1, 3, (6 : ℚ)]; decide +kernel, rfl, rfl, by simp [hw]; norm_num, by simp [hw]; norm_num,
      by simp [hw]; norm_num, by simp [hw]; norm_num, by norm_num, by norm_num⟩
  obtain ⟨t1, -, t3, -⟩ := three_three
  obtain ⟨f1, -, f3, -⟩ := three_four
  obtain ⟨r1, r2⟩ := sqrt18
  have s1 : SurvPairs.sep ⟨3, 0, 0⟩ ⟨0, 3, 0⟩ = Real.sqrt 18 := sep_of (sep_right 3 0 0 0 3 0).1 (sep_nonneg _ _) _ (Real.sqrt_nonneg _) (by rw [Real.sq_sqrt (by norm_num)]; norm_num)
  have s2 : SurvPairs.sep ⟨0, 3, 0⟩ ⟨3, 0, 0⟩ = Real.sqrt 18 := sep_of (sep_right 0 3 0 3 0 0).1 (sep_nonneg _ _) _ (Real.sqrt_nonneg _) (by rw [Real.sq_sqrt (by norm_num)]; norm_num)
  have s3 : SurvPairs.sep ⟨3, 0, 0⟩ ⟨0, 4, 0⟩ = 5 := sep_of (sep_right 3 0 0 0 4 0).1 (sep_nonneg _ _) _ (by norm_num) (by norm_num)
  have s4 : SurvPairs.sep ⟨0, 4, 0⟩ ⟨3, 0, 0⟩ = 5 := sep_of (sep_right 0 4 0 3 0 0).1 (sep_nonneg _ _) _ (by norm_num) (by norm_num)
  have s5 : SurvPairs.sep ⟨0, 3, 0⟩ ⟨0, 4, 0⟩ = 1 := sep_of (sep_right 0 3 0 0 4 0).1 (sep_nonneg _ _) _ (by norm_num) (by norm_num)
  have s6 : SurvPairs.sep ⟨0, 4, 0⟩ ⟨0, 3, 0⟩ = 1 := sep_of (sep_right 0 4 0 0 3 0).1 (sep_nonneg _ _) _ (by norm_num) (by norm_num)
  have s7 : ∀ v : Sky.Vec, SurvPairs.sep v v = 0 := fun v => by
    obtain ⟨a, b, c⟩ := v
    exact sep_of (sep_right a b c a b c).1 (sep_nonneg _ _) _ le_rfl (by ring)
  have a1 : ∀ u v p, ¬ Wedge kwI.cosmo 3 6 u v p p := by
    rintro u v p ⟨⟨h1, -⟩, -⟩
    rw [s7] at h1
    norm_num at h1
  have a2 : ∀ u v, ¬ Wedge kwI.cosmo 3 6 u v (onEquator 90 3 1) (onEquator 90 4 1) := by
    rintro u v ⟨⟨h1, -⟩, -⟩
    rw [at90, at90, s5] at h1
    norm_num at h1
  have a3 : ∀ u v, ¬ Wedge kwI.cosmo 3 6 u v (onEquator 90 4 1) (onEquator 90 3 1) := by
    rintro u v ⟨⟨h1, -⟩, -⟩
    rw [at90, at90, s6] at h1
    norm_num at h1
  have r3 : Real.sqrt 18 < 6 := r2.trans (by norm_num)
  have b1 : Wedge kwI.cosmo 3 6 0 (1 / 4) (onEquator 0 3 1) (onEquator 90 3 1) := by unfold Wedge; rw [at0, at90, t1, s1, zero_div]; exact ⟨⟨r1, r3⟩, by norm_num, by norm_num⟩
  have b2 : Wedge kwI.cosmo 3 6 0 (1 / 4) (onEquator 90 3 1) (onEquator 0 3 1) := by unfold Wedge; rw [at0, at90, t3, s2, zero_div]; exact ⟨⟨r1, r3⟩, by norm_num, by norm_num⟩
  have b3 : ¬ Wedge kwI.cosmo 3 6 0 (1 / 4) (onEquator 0 3 1) (onEquator 90 4 1) := by unfold Wedge; rw [at0, at90, f1, s3]; norm_num
  have b4 : ¬ Wedge kwI.cosmo 3 6 0 (1 / 4) (onEquator 90 4 1) (onEquator 0 3 1) := by unfold Wedge; rw [at0, at90, f3, s4]; norm_num
  have c1 : ¬ Wedge kwI.cosmo 3 6 (1 / 4) (1 / 2) (onEquator 0 3 1) (onEquator 90 3 1) := by unfold Wedge; rw [at0, at90, t1, s1, zero_div]; norm_num
  have c2 : ¬ Wedge kwI.cosmo 3 6 (1 / 4) (1 / 2) (onEquator 90 3 1) (onEquator 0 3 1) := by unfold Wedge; rw [at0, at90, t3, s2, zero_div]; norm_num
  have c3 : Wedge kwI.cosmo 3 6 (1 / 4) (1 / 2) (onEquator 0 3 1) (onEquator 90 4 1) := by unfold Wedge; rw [at0, at90, f1, s3]; norm_num
  have c4 : Wedge kwI.cosmo 3 6 (1 / 4) (1 / 2) (onEquator 90 4 1) (onEquator 0 3 1) := by unfold Wedge; rw [at0, at90, f3, s4]; norm_num
  have rr0 : pairsWith (Wedge kwI.cosmo 3 6 0 (1 / 4)) [onEquator 0 3 1, onEquator 90 3 1, onEquator 90 4 1] [onEquator 0 3 1, onEquator 90 3 1, onEquator 90 4 1] = 2 := by
    simp only [pairsWith, List.map_cons, List.map_nil, List.sum_cons, List.sum_nil, a1, a2, a3, b1, b2, b3, b4, if_true, if_false, hw]; norm_num
  have rr1 : pairsWith (Wedge kwI.cosmo 3 6 (1 / 4) (1 / 2)) [onEquator 0 3 1, onEquator 90 3 1, onEquator 90 4 1] [onEquator 0 3 1, onEquator 90 3 1, onEquator 90 4 1] = 2 := by
    simp only [pairsWith, List.map_cons, List.map_nil, List.sum_cons, List.sum_nil, a1, a2, a3, c1, c2, c3, c4, if_true, if_false, hw]; norm_num
  have dd0 : pairsWith (Wedge kwI.cosmo 3 6 0 (1 / 4)) [onEquator 0 3 1, onEquator 90 4 1] [onEquator 0 3 1, onEquator 90 4 1] = 0 := by
    simp only [pairsWith, List.map_cons, List.map_nil, List.sum_cons, List.sum_nil, a1, b3, b4, if_true, if_false, hw]; norm_num
  have dd1 : pairsWith (Wedge kwI.cosmo 3 6 (1 / 4) (1 / 2)) [onEquator 0 3 1, onEquator 90 4 1] [onEquator 0 3 1, onEquator 90 4 1] = 2 := by
    simp only [pairsWith, List.map_cons, List.map_nil, List.sum_cons, List.sum_nil, a1, c3, c4, if_true, if_false, hw]; norm_num
  have dr0 : pairsWith (Wedge kwI.cosmo 3 6 0 (1 / 4)) [onEquator 0 3 1, onEquator 90 4 1] [onEquator 0 3 1, onEquator 90 3 1, onEquator 90 4 1] = 1 := by
    simp only [pairsWith, List.map_cons, List.map_nil, List.sum_cons, List.sum_nil, a1, a3, b1, b3, b4, if_true, if_false, hw]; norm_num
  have dr1 : pairsWith (Wedge kwI.cosmo 3 6 (1 / 4) (1 / 2)) [onEquator 0 3 1, onEquator 90 4 1] [onEquator 0 3 1, onEquator 90 3 1, onEquator 90 4 1] = 2 := by
    simp only [pairsWith, List.map_cons, List.map_nil, List.sum_cons, List.sum_nil, a1, a3, c1, c3, c4, if_true, if_false, hw]; norm_num
  have e0 : Wedge kwI.cosmo ((3 : ℚ) : ℝ) ((6 : ℚ) : ℝ) (((0 : Nat) : ℝ) / ((4 : Nat) : ℝ)) ((((0 : Nat) : ℝ) + 1) / ((4 : Nat) : ℝ)) = Wedge kwI.cosmo 3 6 0 (1 / 4) := by norm_num
  have e1 : Wedge kwI.cosmo ((3 : ℚ) : ℝ) ((6 : ℚ) : ℝ) (((1 : Nat) : ℝ) / ((4 : Nat) : ℝ)) ((((1 : Nat) : ℝ) + 1) / ((4 : Nat) : ℝ)) = Wedge kwI.cosmo 3 6 (1 / 4) (1 / 2) := by norm_num
  have k0 := ls_2d corner_ranks E rat (k := kwI) good2 hwed o ho 1 0 (by decide) 3 6 rfl rfl
    (by rw [e0]; exact ⟨onEquator 0 3 1, by simp, onEquator 90 3 1, by simp, b1⟩) (by rw [e0, rr0]; norm_num)
  have k1 := ls_2d corner_ranks E rat (k := kwI) good2 hwed o ho 1 1 (by decide) 3 6 rfl rfl
    (by rw [e1]; exact ⟨onEquator 0 3 1, by simp, onEquator 90 4 1, by simp, c3⟩) (by rw [e1, rr1]; norm_num)
  refine ⟨o, ho, ?_, ?_⟩
  · rw [e0] at k0
    simp only [lsOf, rr0, dd0, dr0] at k0
    norm_num at k0
    exact k0
  · rw [e1] at k1
    simp only [lsOf, rr1, dd1, dr1] at k1
    norm_num at k1
    exact k1

end NBK.SurvTpcf
