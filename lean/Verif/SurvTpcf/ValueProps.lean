import Verif.SurvTpcf.MoreProps
import Verif.Pairs.BoxProps

set_option linter.unusedSimpArgs false

/-! C141: the values of the correlation function of a survey. -/
noncomputable section
namespace NBK.SurvTpcf
open BoxTpcf (tally tallyN tallyS)
open Sky (Vec)

open Classical in
/-- The weighted pairs of objects with a property. -/
def pairsWith (S : Obj → Obj → Prop) (X Y : List Obj) : ℚ := (X.map fun p => (Y.map fun q => if S p q then p.weight * q.weight else 0).sum).sum

theorem tally_pairs {k : Kw} {b : Bins} {n : Nat} {S : Obj → Obj → Prop} (h : ∀ p q, bin k b p q = some n ↔ S p q) (X Y : List Obj) :
    tallyS (bin k b) (fun p q => p.weight * q.weight) X Y n = pairsWith S X Y := by
  unfold tallyS pairsWith
  congr 1
  apply List.map_congr_left
  intro p _
  congr 1
  apply List.map_congr_left
  intro q _
  by_cases hb : bin k b p q = some n
  · rw [if_pos hb, if_pos ((h p q).mp hb)]
  · rw [if_neg hb, if_neg fun hS => hb ((h p q).mpr hS)]

/-- C141: in every bin with random pairs the correlation function of a catalog is the Landy-Szalay estimate of the pairs of its objects and of the randoms
in the bin: `S` tells which pairs are in the bin, `W` sums of weights, `V` sums of their squares. -/
theorem ls_value {P : Nat} {C : Nat → Cat} (hP : ∀ i, (C i).length = P) (E : PcfObj.Env) (rat : ℝ → ℚ) {mach : Nat → Option Nat → Mach} {k : Kw}
    (hm : ∀ i j, (mach i j).Good P k.factor) {g : PcfObj.Args} (hs : PcfObj.counterOf g = .survey) (hb : Half g.bins) (r : Nat) (hd : g.data2 = none)
    (h1 : g.randoms1 = some r) (h2 : g.randoms2 = none) (hR : g.R1R2 = none) (hne : g.data1 ≠ r) (n : Nat) (hn : n < nbins g.bins) (S : Obj → Obj → Prop)
    (hS : ∀ p q, bin k g.bins p q = some n ↔ S p q) (D R : List Obj) (hD : D = (C g.data1).flatten) (hRl : R = (C r).flatten) (WD VD WR VR : ℚ)
    (hWD : WD = (D.map SurvPairs.Obj.weight).sum) (hVD : VD = (D.map fun p => p.weight ^ 2).sum) (hWR : WR = (R.map SurvPairs.Obj.weight).sum)
    (hVR : VR = (R.map fun p => p.weight ^ 2).sum) (hDD : WD ^ 2 - VD ≠ 0) (hDR : WD * WR ≠ 0) (hrr : ∃ p ∈ R, ∃ q ∈ R, S p q) (hRR : pairsWith S R R ≠ 0)
    (o : PcfObj.Tpcf) (ho : tpcf E rat mach k C g = .ok o) :
    (PcfObj.columnOf o.corr "corr")[n]? = some (.fin (((WR ^ 2 - VR) / (WD ^ 2 - VD) * pairsWith S D D - 2 * ((WR ^ 2 - VR) / (WD * WR) * pairsWith S D R)) /
      pairsWith S R R + 1)) := by
  unfold tpcf at ho
  obtain ⟨md, hck⟩ := accepted_of_new hs ho
  have hcount : ∀ i j x, (envOf E rat mach k C).count .survey g.bins i j = .ok x →
      x = direct rat k g.bins (all (C i)) ((j.map C).map all) (decide (j = some i)) := by
    intro i j x hx
    unfold envOf at hx
    simp only [if_true] at hx
    rw [count_eq rat (mach i j) P k (hm i j) g.bins hck hb (C i) _ _ (hP i)] at hx
    split at hx
    · cases hx
    split at hx
    · cases hx
    exact (Except.ok.inj hx).symm
  have hspec := PcfObj.ls_spec _ g r h1 o ho
    (fun i j => (direct rat k g.bins (all (C i)) ((j.map C).map all) (decide (j = some i))).pc)
    (by intro i j x hx; rw [hs] at hx; rw [← hcount i j x hx]; rfl)
  rw [hspec]
  unfold Estim.landySzalay
  simp only [h2, hR, hd, Option.getD_none, Option.map_none, Option.elim_none]
  have e1 : decide ((none : Option Nat) = some g.data1) = false := rfl
  have e2 : decide (some r = some g.data1) = false := by simpa using fun h => hne h.symm
  have e3 : decide (some r = some r) = true := by simp
  simp only [e2, e3, PcfObj.Count.pc, direct, tally, Option.map_some, Option.map_none, Option.getD_some, Option.getD_none, Bool.false_eq_true, if_false, if_true,
    e1]
  rw [List.zip_map', List.zip_map', List.zip_map', List.map_map, List.getElem?_map, List.getElem?_map, List.getElem?_range hn]
  simp only [Option.map_some, Function.comp]
  rw [tally_pairs hS, tally_pairs hS, tally_pairs hS]
  have eD : all (C g.data1) = D := hD.symm
  have eR : all (C r) = R := hRl.symm
  rw [eD, eR]
  have hpos : tallyN (bin k g.bins) R R n > 0 := by
    obtain ⟨p, hp, q, hq, hpq⟩ := hrr
    unfold tallyN
    have h3 : 0 < R.countP fun c => bin k g.bins p c = some n := by
      rw [List.countP_pos_iff]
      exact ⟨q, hq, by simpa using (hS p q).mpr hpq⟩
    have h4 := List.single_le_sum (l := R.map fun a => R.countP fun c => bin k g.bins a c = some n) (fun x _ => Nat.zero_le x) _
      (List.mem_map.mpr ⟨p, hp, rfl⟩)
    omega
  have tD : total (ws D) none = 1 / 2 * (WD ^ 2 - VD) := by
    simp only [total, Option.elim_none, ws, hWD, hVD, List.map_map]
    rfl
  have tR : total (ws R) none = 1 / 2 * (WR ^ 2 - VR) := by
    simp only [total, Option.elim_none, ws, hWR, hVR, List.map_map]
    rfl
  have tDR : total (ws D) (some (ws R)) = 1 / 2 * (WD * WR) := by
    simp only [total, Option.elim_some, ws, hWD, hWR]
    ring
  rw [if_pos (show decide True = true from rfl), tD, tR, tDR]
  unfold Estim.lsBin
  dsimp only
  rw [if_pos hpos]
  have f1 : Estim.fdiv (1 / 2 * (WR ^ 2 - VR)) (1 / 2 * (WD ^ 2 - VD)) = some ((WR ^ 2 - VR) / (WD ^ 2 - VD)) := by
    unfold Estim.fdiv
    rw [if_neg (mul_ne_zero (by norm_num) hDD), mul_div_mul_left _ _ (by norm_num)]
  have f2 : Estim.fdiv (1 / 2 * (WR ^ 2 - VR)) (1 / 2 * (WD * WR)) = some ((WR ^ 2 - VR) / (WD * WR)) := by
    unfold Estim.fdiv
    rw [if_neg (mul_ne_zero (by norm_num) hDR), mul_div_mul_left _ _ (by norm_num)]
  rw [f1, f2]
  simp only [Option.bind_eq_bind, Option.bind_some]
  unfold Estim.fdiv
  rw [if_neg hRR]
  simp only [Option.bind_some, Option.pure_def, PcfObj.val]
  congr 4
  ring

/-! ### Which pairs are in a bin -/

theorem edges_getD (b : Bins) (i : Nat) (a : ℚ) (h : b.edges[i]? = some a) : (edges b).getD i 0 = (a : ℝ) := by
  simp [edges, List.getD, h]

theorem edges_sorted {b : Bins} (h : b.edges.Pairwise (· < ·)) : (edges b).Pairwise (· < ·) := by
  unfold edges
  rw [List.pairwise_map]
  exact h.imp fun hxy => by exact_mod_cast hxy

/-- A bin of the first dimension holds what is between its edges. -/
theorem first_bin {b : Bins} (h : b.edges.Pairwise (· < ·)) {i : Nat} {x y : ℚ} (hx : b.edges[i]? = some x) (hy : b.edges[i + 1]? = some y) (v : ℝ) :
    SurvPairs.sepBin (edges b) v = some i ↔ (x : ℝ) ≤ v ∧ v < (y : ℝ) := by
  rw [SurvPairs.sepBin_spec _ (edges_sorted h), edges_getD b i x hx, edges_getD b (i + 1) y hy]
  have : i + 1 < (edges b).length := by
    obtain ⟨h, -⟩ := List.getElem?_eq_some_iff.mp hy
    simpa [edges] using h
  simp [this]

theorem linspace_sorted (a c : ℚ) (h : a < c) (n : Nat) (hn : 0 < n) : (PcfObj.linspace a c (n + 1)).Pairwise (· < ·) := by
  unfold PcfObj.linspace
  rw [List.pairwise_map]
  apply List.Pairwise.imp _ List.pairwise_lt_range
  intro i j hij
  have h1 : (0 : ℚ) < (c - a) / ((n + 1 - 1 : Nat) : ℚ) := by
    apply div_pos (by linarith)
    simpa using hn
  have h2 : (i : ℚ) < j := by exact_mod_cast hij
  nlinarith

/-- The bins of `mu`: `n` of equal width from zero to one, the last of which does not hold one. -/
theorem mu_bin (n : Nat) (hn : 0 < n) (a c : Vec) (j : Nat) :
    muBin n a c = some j ↔ j < n ∧ (j : ℝ) / n ≤ SurvPairs.los a c / SurvPairs.sep a c ∧ SurvPairs.los a c / SurvPairs.sep a c < ((j : ℝ) + 1) / n := by
  unfold muBin muOf
  have hsort : ((PcfObj.linspace 0 1 (n + 1)).map fun q : ℚ => (q : ℝ)).Pairwise (· < ·) := by
    rw [List.pairwise_map]
    exact (linspace_sorted 0 1 (by norm_num) n hn).imp fun hxy => by exact_mod_cast hxy
  rw [SurvPairs.sepBin_spec _ hsort]
  have hl : ((PcfObj.linspace 0 1 (n + 1)).map fun q : ℚ => (q : ℝ)).length = n + 1 := by simp [PcfObj.linspace]
  have hv : ∀ i < n + 1, ((PcfObj.linspace 0 1 (n + 1)).map fun q : ℚ => (q : ℝ)).getD i 0 = (i : ℝ) / n := by
    intro i hi
    rw [List.getD_eq_getElem _ _ (by rw [hl]; exact hi)]
    simp [PcfObj.linspace]
    ring
  rw [hl]
  constructor
  · rintro ⟨h1, h2, h3⟩
    rw [hv j (by omega)] at h2
    rw [hv (j + 1) h1] at h3
    exact ⟨by omega, h2, by push_cast at h3; exact h3⟩
  · rintro ⟨h1, h2, h3⟩
    refine ⟨by omega, ?_, ?_⟩
    · rw [hv j (by omega)]; exact h2
    · rw [hv (j + 1) (by omega)]; push_cast; exact h3

theorem muBin_lt {n : Nat} (hn : 0 < n) {a c : Vec} {j : Nat} (h : muBin n a c = some j) : j < n := ((mu_bin n hn a c j).mp h).1

/-- A bin of mode '1d' holds the pairs whose separation is between its edges, without the pairs along the line of sight. -/
theorem bin_1d (k : Kw) {b : Bins} (hm : b.mode = "1d") (h : b.edges.Pairwise (· < ·)) {i : Nat} {x y : ℚ} (hx : b.edges[i]? = some x)
    (hy : b.edges[i + 1]? = some y) (p q : Obj) :
    bin k b p q = some i ↔ ((x : ℝ) ≤ SurvPairs.sep (posOf k b p) (posOf k b q) ∧ SurvPairs.sep (posOf k b p) (posOf k b q) < (y : ℝ)) ∧
      SurvPairs.los (posOf k b p) (posOf k b q) / SurvPairs.sep (posOf k b p) (posOf k b q) < 1 := by
  have hmode : modeOf b = .d1 (muBin 1) := by simp [modeOf, hm]
  unfold bin
  rw [hmode]
  show Pairs.bin2 1 _ _ = some i ↔ _
  rw [Pairs.bin2_spec, Nat.div_one, Nat.mod_one, mu_bin 1 one_pos, first_bin h hx hy]
  simp only [Nat.one_pos, true_and, Nat.cast_zero, Nat.cast_one, zero_add, div_one, zero_div]
  refine and_congr_right fun _ => and_iff_right ?_
  unfold SurvPairs.los SurvPairs.sep
  exact div_nonneg (div_nonneg (abs_nonneg _) (Real.sqrt_nonneg _)) (Real.sqrt_nonneg _)

/-- A bin of mode '2d' holds the pairs whose separation and `mu` are between its edges. -/
theorem bin_2d (k : Kw) {b : Bins} (hm : b.mode = "2d") {n : Nat} (hn : b.Nmu = some n) (h : b.edges.Pairwise (· < ·)) {i j : Nat} (hj : j < n) {x y : ℚ}
    (hx : b.edges[i]? = some x) (hy : b.edges[i + 1]? = some y) (p q : Obj) :
    bin k b p q = some (i * n + j) ↔ ((x : ℝ) ≤ SurvPairs.sep (posOf k b p) (posOf k b q) ∧ SurvPairs.sep (posOf k b p) (posOf k b q) < (y : ℝ)) ∧
      (j : ℝ) / n ≤ SurvPairs.los (posOf k b p) (posOf k b q) / SurvPairs.sep (posOf k b p) (posOf k b q) ∧
      SurvPairs.los (posOf k b p) (posOf k b q) / SurvPairs.sep (posOf k b p) (posOf k b q) < ((j : ℝ) + 1) / n := by
  have hmode : modeOf b = .d2 n (muBin n) := by simp [modeOf, hm, hn]
  have h0 : 0 < n := by omega
  unfold bin
  rw [hmode]
  show Pairs.bin2 n _ _ = some (i * n + j) ↔ _
  have e1 : (i * n + j) / n = i := by rw [Nat.mul_comm, Nat.mul_add_div h0, Nat.div_eq_of_lt hj, Nat.add_zero]
  have e2 : (i * n + j) % n = j := by rw [Nat.mul_comm, Nat.mul_add_mod, Nat.mod_eq_of_lt hj]
  rw [Pairs.bin2_spec, e1, e2, mu_bin n h0, first_bin h hx hy]
  simp only [h0, true_and, hj]

theorem piEdges_sorted {P : ℝ} (h : 1 ≤ P) : (SurvPairs.piEdges P).Pairwise (· < ·) := by
  unfold SurvPairs.piEdges
  rw [List.pairwise_map]
  have hf : (1 : ℤ) ≤ ⌊P⌋ := Int.le_floor.mpr (by simpa using h)
  apply List.Pairwise.imp _ List.pairwise_lt_range
  intro a c hac
  have h1 : (0 : ℝ) < (⌊P⌋.toNat : ℝ) := by
    have : 0 < ⌊P⌋.toNat := by omega
    exact_mod_cast this
  have h2 : (a : ℝ) < c := by exact_mod_cast hac
  exact div_lt_div_of_pos_right (mul_lt_mul_of_pos_left h2 (by linarith)) h1

/-- A bin of mode 'projected' holds the pairs whose separations across and along the line of sight are between its edges. -/
theorem bin_projected (k : Kw) {b : Bins} (hm : b.mode = "projected") {pm : ℚ} (hp : b.pimax = some pm) (h1 : 1 ≤ pm) {n : Nat} (hn : n = ⌊pm⌋.toNat)
    (h : b.edges.Pairwise (· < ·)) {i j : Nat} (hj : j < n) {x y : ℚ} (hx : b.edges[i]? = some x) (hy : b.edges[i + 1]? = some y) (p q : Obj) :
    bin k b p q = some (i * n + j) ↔ ((x : ℝ) ≤ SurvPairs.perp (posOf k b p) (posOf k b q) ∧ SurvPairs.perp (posOf k b p) (posOf k b q) < (y : ℝ)) ∧
      (pm : ℝ) * j / n ≤ SurvPairs.los (posOf k b p) (posOf k b q) ∧ SurvPairs.los (posOf k b p) (posOf k b q) < (pm : ℝ) * (j + 1) / n := by
  have hmode : modeOf b = .projected ((pm : ℚ) : ℝ) := by simp [modeOf, hm, hp]
  have h0 : 0 < n := by omega
  have hfl : ⌊((pm : ℚ) : ℝ)⌋.toNat = n := by rw [Rat.floor_cast, hn]
  unfold bin
  rw [hmode]
  show Pairs.bin2 ⌊((pm : ℚ) : ℝ)⌋.toNat _ _ = some (i * n + j) ↔ _
  have e1 : (i * n + j) / n = i := by rw [Nat.mul_comm, Nat.mul_add_div h0, Nat.div_eq_of_lt hj, Nat.add_zero]
  have e2 : (i * n + j) % n = j := by rw [Nat.mul_comm, Nat.mul_add_mod, Nat.mod_eq_of_lt hj]
  have h1' : (1 : ℝ) ≤ ((pm : ℚ) : ℝ) := by exact_mod_cast h1
  rw [hfl, Pairs.bin2_spec, e1, e2, first_bin h hx hy, SurvPairs.sepBin_spec _ (piEdges_sorted h1')]
  have hl : (SurvPairs.piEdges ((pm : ℚ) : ℝ)).length = n + 1 := by
    unfold SurvPairs.piEdges
    rw [hfl, List.length_map, List.length_range]
  have hv : ∀ c < n + 1, (SurvPairs.piEdges ((pm : ℚ) : ℝ)).getD c 0 = (pm : ℝ) * c / n := by
    intro c hc
    rw [List.getD_eq_getElem _ _ (by rw [hl]; exact hc)]
    simp only [SurvPairs.piEdges, List.getElem_map, List.getElem_range, hfl]

  rw [hl, hv j (by omega), hv (j + 1) (by omega)]
  push_cast
  simp only [h0, true_and, show j + 1 < n + 1 by omega]

/-- A bin of mode 'angular' holds the pairs whose angle is between its edges, in degrees; the redshifts are not asked for. -/
theorem bin_angular (k : Kw) {b : Bins} (hm : b.mode = "angular") (h : b.edges.Pairwise (· < ·)) {i : Nat} {x y : ℚ} (hx : b.edges[i]? = some x)
    (hy : b.edges[i + 1]? = some y) (p q : Obj) :
    bin k b p q = some i ↔ (x : ℝ) ≤ SurvPairs.angle (Sky.skyToUnitSphere p.ra p.dec true) (Sky.skyToUnitSphere q.ra q.dec true) ∧
      SurvPairs.angle (Sky.skyToUnitSphere p.ra p.dec true) (Sky.skyToUnitSphere q.ra q.dec true) < (y : ℝ) := by
  have hmode : modeOf b = .angular := by simp [modeOf, hm]
  have hpos : ∀ o, posOf k b o = Sky.skyToUnitSphere o.ra o.dec true := by
    intro o
    simp [posOf, distOf, hmode, SurvPairs.Mode.isAngular, SurvPairs.cartesian]
  unfold bin
  rw [hmode, hpos, hpos]
  exact first_bin h hx hy _

/-- C141: the '1d' correlation function in terms of the separations of the comoving positions: the pairs of a bin are those with a separation between its edges,
but for the pairs along the line of sight. -/
theorem ls_1d {P : Nat} {C : Nat → Cat} (hP : ∀ i, (C i).length = P) (E : PcfObj.Env) (rat : ℝ → ℚ) {mach : Nat → Option Nat → Mach} {k : Kw}
    (hm : ∀ i j, (mach i j).Good P k.factor) {g : PcfObj.Args} (hs : PcfObj.counterOf g = .survey) (hmode : g.bins.mode = "1d") (r : Nat) (hd : g.data2 = none)
    (h1 : g.randoms1 = some r) (h2 : g.randoms2 = none) (hR : g.R1R2 = none) (hne : g.data1 ≠ r) (hsort : g.bins.edges.Pairwise (· < ·)) (n : Nat) (x y : ℚ)
    (hx : g.bins.edges[n]? = some x) (hy : g.bins.edges[n + 1]? = some y) (S : Obj → Obj → Prop)
    (hS : ∀ p q, S p q ↔ ((x : ℝ) ≤ SurvPairs.sep (SurvPairs.cartesian k.cosmo p) (SurvPairs.cartesian k.cosmo q) ∧
        SurvPairs.sep (SurvPairs.cartesian k.cosmo p) (SurvPairs.cartesian k.cosmo q) < (y : ℝ)) ∧
      SurvPairs.los (SurvPairs.cartesian k.cosmo p) (SurvPairs.cartesian k.cosmo q) / SurvPairs.sep (SurvPairs.cartesian k.cosmo p) (SurvPairs.cartesian k.cosmo q) < 1) (D R : List Obj)
    (hD : D = (C g.data1).flatten) (hRl : R = (C r).flatten) (WD VD WR VR : ℚ)
    (hWD : WD = (D.map SurvPairs.Obj.weight).sum) (hVD : VD = (D.map fun p => p.weight ^ 2).sum) (hWR : WR = (R.map SurvPairs.Obj.weight).sum)
    (hVR : VR = (R.map fun p => p.weight ^ 2).sum) (hDD : WD ^ 2 - VD ≠ 0) (hDR : WD * WR ≠ 0) (hrr : ∃ p ∈ R, ∃ q ∈ R, S p q) (hRR : pairsWith S R R ≠ 0)
    (o : PcfObj.Tpcf) (ho : tpcf E rat mach k C g = .ok o) :
    (PcfObj.columnOf o.corr "corr")[n]? = some (.fin (((WR ^ 2 - VR) / (WD ^ 2 - VD) * pairsWith S D D - 2 * ((WR ^ 2 - VR) / (WD * WR) * pairsWith S D R)) /
      pairsWith S R R + 1)) := by
  have hlt : n < nbins g.bins := by
    obtain ⟨h, -⟩ := List.getElem?_eq_some_iff.mp hy
    simp [nbins, modeOf, hmode, SurvPairs.Mode.second]
    omega
  have hpos : ∀ o, posOf k g.bins o = SurvPairs.cartesian k.cosmo o := fun o => by
    simp [posOf, distOf, modeOf, hmode, SurvPairs.Mode.isAngular]
  refine ls_value hP E rat hm hs (fun h => by rw [hmode] at h; simp at h) r hd h1 h2 hR hne n hlt S (fun p q => ?_) D R hD hRl WD VD WR VR hWD hVD hWR hVR hDD hDR hrr hRR o ho
  rw [hS, bin_1d k hmode hsort hx hy, hpos, hpos]

/-- C141: the angular correlation function in terms of the angles between the objects. -/
theorem ls_angular {P : Nat} {C : Nat → Cat} (hP : ∀ i, (C i).length = P) (E : PcfObj.Env) (rat : ℝ → ℚ) {mach : Nat → Option Nat → Mach} {k : Kw}
    (hm : ∀ i j, (mach i j).Good P k.factor) {g : PcfObj.Args} (hs : PcfObj.counterOf g = .survey) (hmode : g.bins.mode = "angular") (hb : Pairs.maxEdge g.bins.edges ≤ 180) (r : Nat) (hd : g.data2 = none)
    (h1 : g.randoms1 = some r) (h2 : g.randoms2 = none) (hR : g.R1R2 = none) (hne : g.data1 ≠ r) (hsort : g.bins.edges.Pairwise (· < ·)) (n : Nat) (x y : ℚ)
    (hx : g.bins.edges[n]? = some x) (hy : g.bins.edges[n + 1]? = some y) (S : Obj → Obj → Prop)
    (hS : ∀ p q, S p q ↔ (x : ℝ) ≤ SurvPairs.angle (Sky.skyToUnitSphere p.ra p.dec true) (Sky.skyToUnitSphere q.ra q.dec true) ∧
        SurvPairs.angle (Sky.skyToUnitSphere p.ra p.dec true) (Sky.skyToUnitSphere q.ra q.dec true) < (y : ℝ)) (D R : List Obj)
    (hD : D = (C g.data1).flatten) (hRl : R = (C r).flatten) (WD VD WR VR : ℚ)
    (hWD : WD = (D.map SurvPairs.Obj.weight).sum) (hVD : VD = (D.map fun p => p.weight ^ 2).sum) (hWR : WR = (R.map SurvPairs.Obj.weight).sum)
    (hVR : VR = (R.map fun p => p.weight ^ 2).sum) (hDD : WD ^ 2 - VD ≠ 0) (hDR : WD * WR ≠ 0) (hrr : ∃ p ∈ R, ∃ q ∈ R, S p q) (hRR : pairsWith S R R ≠ 0)
    (o : PcfObj.Tpcf) (ho : tpcf E rat mach k C g = .ok o) :
    (PcfObj.columnOf o.corr "corr")[n]? = some (.fin (((WR ^ 2 - VR) / (WD ^ 2 - VD) * pairsWith S D D - 2 * ((WR ^ 2 - VR) / (WD * WR) * pairsWith S D R)) /
      pairsWith S R R + 1)) := by
  have hlt : n < nbins g.bins := by
    obtain ⟨h, -⟩ := List.getElem?_eq_some_iff.mp hy
    simp [nbins, modeOf, hmode, SurvPairs.Mode.second]
    omega
  refine ls_value hP E rat hm hs (fun _ => hb) r hd h1 h2 hR hne n hlt S (fun p q => ?_) D R hD hRl WD VD WR VR hWD hVD hWR hVR hDD hDR hrr hRR o ho
  rw [hS, bin_angular k hmode hsort hx hy]

/-! ### Pairs along the line of sight -/

/-- Two objects of the same direction at different distances: their separation is along the line of sight. -/
theorem los_same_direction (d : ℝ → ℝ) (p q : Obj) (hra : p.ra = q.ra) (hdec : p.dec = q.dec) (hp : 0 < d p.redshift) (hq : 0 < d q.redshift) :
    SurvPairs.sep (SurvPairs.cartesian (some d) p) (SurvPairs.cartesian (some d) q) = |d p.redshift - d q.redshift| ∧
    SurvPairs.los (SurvPairs.cartesian (some d) p) (SurvPairs.cartesian (some d) q) = |d p.redshift - d q.redshift| := by
  have hu : (Sky.skyToUnitSphere q.ra q.dec true).dot (Sky.skyToUnitSphere q.ra q.dec true) = 1 := by
    have h := Sky.unit_norm q.ra q.dec true
    rw [norm_dot] at h
    have h2 := Real.sqrt_eq_one.mp h
    exact h2
  have hdot : ∀ a c : Obj, a.ra = q.ra → a.dec = q.dec → c.ra = q.ra → c.dec = q.dec →
      (SurvPairs.cartesian (some d) a).dot (SurvPairs.cartesian (some d) c) = d a.redshift * d c.redshift := by
    intro a c h1 h2 h3 h4
    unfold SurvPairs.cartesian
    rw [h1, h2, h3, h4]
    simp only [Sky.Vec.dot, Sky.smul_x, Sky.smul_y, Sky.smul_z] at hu ⊢
    linear_combination (d a.redshift * d c.redshift) * hu
  have e1 := hdot p p hra hdec hra hdec
  have e2 := hdot p q hra hdec rfl rfl
  have e3 := hdot q q rfl rfl rfl rfl
  rw [sep_dot, los_dot, e1, e2, e3]
  constructor
  · rw [show d p.redshift * d p.redshift - 2 * (d p.redshift * d q.redshift) + d q.redshift * d q.redshift = (d p.redshift - d q.redshift) ^ 2 by ring, Real.sqrt_sq_eq_abs]
  · rw [show d p.redshift * d p.redshift + 2 * (d p.redshift * d q.redshift) + d q.redshift * d q.redshift = (d p.redshift + d q.redshift) ^ 2 by ring,
      Real.sqrt_sq (by linarith),
      show d p.redshift * d p.redshift - d q.redshift * d q.redshift = (d p.redshift - d q.redshift) * (d p.redshift + d q.redshift) by ring, abs_mul,
      abs_of_pos (show 0 < d p.redshift + d q.redshift by linarith), mul_div_cancel_right₀ _ (by linarith)]

/-- C141 (the claim that a bin of '1d' or '2d' holds all pairs with a separation between its edges is false): two objects of the same right ascension and
declination at different distances are in no bin at all, whatever the edges. -/
theorem line_of_sight_lost {k : Kw} {d : ℝ → ℝ} (hk : k.cosmo = some d) {b : Bins} (hmode : b.mode = "1d" ∨ ∃ m, b.mode = "2d" ∧ b.Nmu = some m) (p q : Obj)
    (hra : p.ra = q.ra) (hdec : p.dec = q.dec) (hp : 0 < d p.redshift) (hq : 0 < d q.redshift) (hne : d p.redshift ≠ d q.redshift) : bin k b p q = none := by
  obtain ⟨h1, h2⟩ := los_same_direction d p q hra hdec hp hq
  have h3 : |d p.redshift - d q.redshift| ≠ 0 := by simpa [sub_eq_zero] using hne
  have hmu : ∀ n, 0 < n → muBin n (SurvPairs.cartesian (some d) p) (SurvPairs.cartesian (some d) q) = none := by
    intro n hn
    cases h : muBin n (SurvPairs.cartesian (some d) p) (SurvPairs.cartesian (some d) q) with
    | none => rfl
    | some j =>
      obtain ⟨hj, -, h4⟩ := (mu_bin n hn _ _ j).mp h
      rw [h1, h2, div_self h3] at h4
      have h5 : ((j : ℝ) + 1) ≤ n := by exact_mod_cast hj
      rw [lt_div_iff₀ (by exact_mod_cast hn)] at h4
      linarith
  have hpos : ∀ o, posOf k b o = SurvPairs.cartesian (some d) o := fun o => by
    rcases hmode with h | ⟨m, h, hm⟩ <;> simp [posOf, distOf, modeOf, h, SurvPairs.Mode.isAngular, hk]
  unfold bin
  rw [hpos, hpos]
  rcases hmode with h | ⟨m, h, hm⟩
  · have : modeOf b = .d1 (muBin 1) := by simp [modeOf, h]
    rw [this]
    simp only [SurvPairs.binOf, Pairs.bin2, hmu 1 one_pos, Option.bind_none, Option.bind_fun_none]
  · have : modeOf b = .d2 m (muBin m) := by simp [modeOf, h, hm]
    rw [this]
    show Pairs.bin2 m _ _ = none
    rcases Nat.eq_zero_or_pos m with h0 | h0
    · subst h0
      simp [Pairs.bin2]
    · simp only [Pairs.bin2, hmu m h0, Option.bind_none, Option.bind_fun_none]

/-! ### Mean separations -/

/-- What is averaged: the angle in degrees, the separation across the line of sight, or the separation. -/
theorem sep_spec (rat : ℝ → ℚ) (k : Kw) (b : Bins) (p q : Obj) :
    (b.mode = "angular" → sep rat k b p q = rat (SurvPairs.angle (Sky.skyToUnitSphere p.ra p.dec true) (Sky.skyToUnitSphere q.ra q.dec true))) ∧
    (b.mode = "projected" → sep rat k b p q = rat (SurvPairs.perp (SurvPairs.cartesian k.cosmo p) (SurvPairs.cartesian k.cosmo q))) ∧
    (b.mode = "1d" ∨ b.mode = "2d" → sep rat k b p q = rat (SurvPairs.sep (SurvPairs.cartesian k.cosmo p) (SurvPairs.cartesian k.cosmo q))) := by
  refine ⟨fun h => ?_, fun h => ?_, fun h => ?_⟩
  · simp [sep, sepOf, modeOf, h, posOf, distOf, SurvPairs.Mode.isAngular, SurvPairs.cartesian]
  · simp [sep, sepOf, modeOf, h, posOf, distOf, SurvPairs.Mode.isAngular]
  · rcases h with h | h <;> simp [sep, sepOf, modeOf, h, posOf, distOf, SurvPairs.Mode.isAngular]

open Classical in
/-- C141: the first column of the pairs is, in every bin, the mean separation of its pairs, each pair once and not weighted, and zero in an empty bin; the
second is their number. -/
theorem mean_separation (rat : ℝ → ℚ) (M : Mach) (P : Nat) (k : Kw) (hM : M.Good P k.factor) (b : Bins) {md : Pairs.Mode}
    (hck : Pairs.checkArgs b.mode b.edges b.Nmu b.pimax = .ok md) (hb : Half b) (first : Cat) (second : Option Cat) (same : Bool) (hP : first.length = P)
    (x : PcfObj.Count) (hx : countSurv rat M k b first second same = .ok x) (n : Nat) (hn : n < nbins b) (S : Obj → Obj → Prop)
    (hS : ∀ p q, bin k b p q = some n ↔ S p q) (N : Nat) (hN : N = (first.flatten.map fun p => (second.getD first).flatten.countP fun q => decide (S p q)).sum) :
    (x.rows[n]?.map Prod.fst = some N) ∧ (N = 0 → x.sep[n]? = some (.fin 0)) ∧
    (N ≠ 0 → x.sep[n]? = some (.fin ((first.flatten.map fun p => ((second.getD first).flatten.map fun q => if S p q then sep rat k b p q else 0).sum).sum / N))) := by
  rw [count_eq rat M P k hM b hck hb first second same hP] at hx
  split at hx
  · cases hx
  split at hx
  · cases hx
  have hx := (Except.ok.inj hx).symm
  subst hx
  have e : (second.map all).getD (all first) = (second.getD first).flatten := by cases second <;> rfl
  have hc : tallyN (bin k b) (all first) (second.getD first).flatten n = N := by
    rw [hN]
    unfold tallyN all
    congr 1
    apply List.map_congr_left
    intro p _
    apply List.countP_congr
    intro q _
    simp [hS]
  have hs : tallyS (bin k b) (sep rat k b) (all first) (second.getD first).flatten n =
      (first.flatten.map fun p => ((second.getD first).flatten.map fun q => if S p q then sep rat k b p q else 0).sum).sum := by
    unfold tallyS all
    congr 1
    apply List.map_congr_left
    intro p _
    congr 1
    apply List.map_congr_left
    intro q _
    by_cases h : bin k b p q = some n
    · rw [if_pos h, if_pos ((hS p q).mp h)]
    · rw [if_neg h, if_neg fun h' => h ((hS p q).mpr h')]
  unfold direct tally
  simp only [e, List.getElem?_map, List.getElem?_range hn, Option.map_some, hc, hs, true_and]
  exact ⟨fun h => by rw [if_pos h], fun h => by rw [if_neg h]⟩

/-! ### The results exist -/

/-- What is counted whenever the arguments are accepted, distances have a cosmology and there are bins of `mu`. -/
theorem base_made {P : Nat} {C : Nat → Cat} (hP : ∀ i, (C i).length = P) (E : PcfObj.Env) (rat : ℝ → ℚ) {mach : Nat → Option Nat → Mach} {k : Kw}
    (hm : ∀ i j, (mach i j).Good P k.factor) {g : PcfObj.Args} (hs : PcfObj.counterOf g = .survey) (hb : Half g.bins) {md : Pairs.Mode}
    (hck : Pairs.checkArgs g.bins.mode g.bins.edges g.bins.Nmu g.bins.pimax = .ok md) (hc : g.bins.mode = "angular" ∨ k.cosmo.isSome)
    (h0 : ¬ (g.bins.mode = "2d" ∧ g.bins.Nmu = some 0)) (r : Nat) (h1 : g.randoms1 = some r) (hR : g.R1R2 = none) :
    ∃ o, PcfObj.runBase (envOf E rat mach k C) g = .ok o := by
  obtain ⟨e, hee⟩ : ∃ e, e = envOf E rat mach k C := ⟨_, rfl⟩
  rw [← hee]
  have hcnt : ∀ i j, ∃ x, e.count .survey g.bins i j = .ok x := by
    intro i j
    rw [hee]
    unfold envOf
    simp only [if_true]
    rw [count_eq rat (mach i j) P k (hm i j) g.bins hck hb (C i) _ _ (hP i), if_neg, if_neg h0]
    · exact ⟨_, rfl⟩
    · rintro ⟨h3, h4⟩
      rcases hc with hc | hc
      · exact h3 hc
      · rw [h4] at hc; cases hc
  have hcd : ∀ i j, ∃ x q, PcfObj.counted e .survey g.bins i j = .ok (x, q) ∧ PcfObj.stateBins g.bins = .ok (q.dims, q.edges) ∧
      q.shape = q.edges.map (fun e => e.length - 1) ∧ q.dims.length = q.edges.length := by
    intro i j
    obtain ⟨x, hx⟩ := hcnt i j
    obtain ⟨q, hq, hst, -, -, -, -, -, hsh, hl, -⟩ := PcfObj.pairs_spec .survey g.bins x md hck
    refine ⟨x, q, ?_, hst, hsh, hl⟩
    unfold PcfObj.counted
    rw [hck]
    simp [hx, hq, Except.bind]
  obtain ⟨xr, qr, er, tr, sr, -⟩ := hcd r (some (g.randoms2.getD r))
  obtain ⟨xd, qd, ed, td, sd, ld⟩ := hcd g.data1 g.data2
  obtain ⟨xc, qc, ec, -, -, -⟩ := hcd g.data1 (some (g.randoms2.getD r))
  have hsame : qr.shape = qd.shape := by
    rw [tr] at td
    simp only [Except.ok.injEq, Prod.mk.injEq] at td
    rw [sr, sd, td.2]
  obtain ⟨y, hy⟩ : ∃ y, PcfObj.secondPairs e g r (xc, qc) = .ok y := by
    unfold PcfObj.secondPairs
    cases g.data2 with
    | none => exact ⟨_, rfl⟩
    | some d =>
      obtain ⟨x, q, h, -⟩ := hcd d (some r)
      rw [hs]
      exact ⟨_, h⟩
  unfold PcfObj.runBase
  rw [if_neg (not_analytic hs), h1]
  simp only
  unfold PcfObj.runLS PcfObj.randomPairs
  simp only [hR, hs, er, ed, ec, hy, Except.bind]
  rw [if_neg (by simpa using hsame)]
  unfold PcfObj.corrOf
  rw [sd]
  obtain ⟨b2, k2⟩ := BoxTpcf.make_ok qd.dims qd.edges [⟨"corr", false, ((xd.rows.zip (xc.rows.zip (y.1.rows.zip xr.pc.rows))).map fun p =>
        Estim.lsBin xd.total xc.total y.1.total xr.pc.total p.1.2 p.2.1.2 p.2.2.1.2 p.2.2.2).map PcfObj.val⟩,
      ⟨qd.dims.headD "", false, (qd.data.find? fun c => c.name = qd.dims.headD "").elim [] Binned.Col.vals⟩] [] none ld
  rw [k2]
  exact ⟨_, rfl⟩

/-- C141: a correlation function with randoms is made whenever the arguments are accepted, distances have a cosmology and there are bins of `mu`. -/
theorem made {P : Nat} {C : Nat → Cat} (hP : ∀ i, (C i).length = P) (E : PcfObj.Env) (rat : ℝ → ℚ) {mach : Nat → Option Nat → Mach} {k : Kw}
    (hm : ∀ i j, (mach i j).Good P k.factor) {g : PcfObj.Args} (hs : PcfObj.counterOf g = .survey) (hb : Half g.bins) {md : Pairs.Mode}
    (hck : Pairs.checkArgs g.bins.mode g.bins.edges g.bins.Nmu g.bins.pimax = .ok md) (hc : g.bins.mode = "angular" ∨ k.cosmo.isSome)
    (h0 : ¬ (g.bins.mode = "2d" ∧ g.bins.Nmu = some 0)) (hp : g.bins.mode ≠ "projected") (r : Nat) (h1 : g.randoms1 = some r) (hR : g.R1R2 = none) :
    ∃ o, tpcf E rat mach k C g = .ok o := by
  obtain ⟨q, hq⟩ := base_made hP E rat hm hs hb hck hc h0 r h1 hR
  unfold tpcf PcfObj.new
  rw [hq]
  simp only [Except.bind, if_neg hp]
  exact ⟨_, rfl⟩

end NBK.SurvTpcf
