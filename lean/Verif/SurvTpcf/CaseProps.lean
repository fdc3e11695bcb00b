import Verif.SurvTpcf.ValueProps
import Verif.BoxTpcf.CaseProps

set_option linter.unusedSimpArgs false

/-! C141: ranks that keep the contract, and cases. -/
noncomputable section
namespace NBK.SurvTpcf

/-- Cells dealt out to `P` ranks in turn. -/
def dealt (P : Nat) (np : Nat → Nat) : Mach where
  tree := BoxTpcf.chain (P - 1)
  np := np
  rank i j k := (i + 3 * j + 7 * k) % P

/-- C141: such ranks keep the contract. -/
theorem dealt_good (P : Nat) (hP : 0 < P) (np : Nat → Nat) (hn : ∀ a, 0 < np a) (factor : Nat) (hf : 0 < factor) : (dealt P np).Good P factor := by
  refine ⟨?_, fun a => Nat.mul_pos hf (hn a), fun i j k _ _ _ => Nat.mod_lt _ hP⟩
  unfold dealt
  rw [BoxTpcf.chain_ranks, Nat.sub_add_cancel hP]

/-- An object on the celestial equator. -/
def onEquator (ra z : ℝ) (w : ℚ) : Obj := { ra := ra, dec := 0, redshift := z, weight := w }

/-- Two galaxies 90 degrees apart and three randoms 90 degrees apart, on two ranks. -/
def cats (i : Nat) : Cat :=
  if i = 0 then [[onEquator 0 1 1], [onEquator 90 2 1]]
  else if i = 1 then [[onEquator 180 1 1, onEquator 0 1 1], [onEquator 90 5 1]]
  else [[], []]

theorem cats_ranks : ∀ i, (cats i).length = 2 := fun i => by
  unfold cats
  split
  · rfl
  split <;> rfl

def argsA : PcfObj.Args := { kind := .survey, bins := ⟨"angular", [30, 100], none, none⟩, data1 := 0, randoms1 := some 1 }

theorem equator_angle (a c z z' : ℝ) (w w' : ℚ) (t : ℝ) (ht : Real.cos (Sky.deg2rad a - Sky.deg2rad c) = Real.cos t) (h0 : 0 ≤ t) (h1 : t ≤ Real.pi) :
    SurvPairs.angle (Sky.skyToUnitSphere (onEquator a z w).ra (onEquator a z w).dec true) (Sky.skyToUnitSphere (onEquator c z' w').ra (onEquator c z' w').dec true) =
      Sky.rad2deg t := by
  unfold SurvPairs.angle
  rw [Sky.unit_norm, Sky.unit_norm]
  have hd : (Sky.skyToUnitSphere (onEquator a z w).ra (onEquator a z w).dec true).dot (Sky.skyToUnitSphere (onEquator c z' w').ra (onEquator c z' w').dec true) =
      Real.cos t := by
    rw [← ht, Real.cos_sub]
    simp [Sky.skyToUnitSphere, onEquator, Sky.Vec.dot, Sky.deg2rad]
  rw [hd, mul_one, div_one, Real.arccos_cos h0 h1]

theorem angle_0 (a z z' : ℝ) (w w' : ℚ) :
    SurvPairs.angle (Sky.skyToUnitSphere (onEquator a z w).ra (onEquator a z w).dec true) (Sky.skyToUnitSphere (onEquator a z' w').ra (onEquator a z' w').dec true) = 0 := by
  rw [equator_angle a a z z' w w' 0 (by simp) (le_refl _) Real.pi_pos.le]
  simp [Sky.rad2deg]

theorem angle_90 (a c z z' : ℝ) (w w' : ℚ) (h : a = c + 90 ∨ c = a + 90) :
    SurvPairs.angle (Sky.skyToUnitSphere (onEquator a z w).ra (onEquator a z w).dec true) (Sky.skyToUnitSphere (onEquator c z' w').ra (onEquator c z' w').dec true) = 90 := by
  rw [equator_angle a c z z' w w' (Real.pi / 2) ?_ (by positivity) (by linarith [Real.pi_pos])]
  · unfold Sky.rad2deg
    field_simp
    norm_num
  · rcases h with h | h
    · congr 1
      subst h
      unfold Sky.deg2rad
      ring
    · rw [← Real.cos_neg]
      congr 1
      subst h
      unfold Sky.deg2rad
      ring

theorem angle_180 (a c z z' : ℝ) (w w' : ℚ) (h : a = c + 180 ∨ c = a + 180) :
    SurvPairs.angle (Sky.skyToUnitSphere (onEquator a z w).ra (onEquator a z w).dec true) (Sky.skyToUnitSphere (onEquator c z' w').ra (onEquator c z' w').dec true) = 180 := by
  rw [equator_angle a c z z' w w' Real.pi ?_ Real.pi_pos.le (le_refl _)]
  · unfold Sky.rad2deg
    field_simp
  · rcases h with h | h
    · congr 1
      subst h
      unfold Sky.deg2rad
      ring
    · rw [← Real.cos_neg]
      congr 1
      subst h
      unfold Sky.deg2rad
      ring

/-- The angular correlation function of `cats` is made and its value is one, whatever the surroundings, on these two ranks. -/
theorem case_angular (E : PcfObj.Env) (rat : ℝ → ℚ) : ∃ o, tpcf E rat (fun _ _ => dealt 2 fun _ => 1) {} cats argsA = .ok o ∧
    (PcfObj.columnOf o.corr "corr")[0]? = some (.fin 1) := by
  have hg : ∀ (i : Nat) (j : Option Nat), ((fun _ _ => dealt 2 fun _ => 1 : Nat → Option Nat → Mach) i j).Good 2 ({} : Kw).factor :=
    fun _ _ => dealt_good 2 (by decide) _ (fun _ => by decide) 4 (by decide)
  have hb : Half argsA.bins := fun _ => by decide +kernel
  obtain ⟨o, ho⟩ := made cats_ranks E rat hg (g := argsA) rfl hb (md := .angular) (by decide +kernel) (.inl rfl) (by decide) (by decide) 1 rfl rfl
  refine ⟨o, ho, ?_⟩
  let S : Obj → Obj → Prop := fun p q => ((30 : ℚ) : ℝ) ≤ SurvPairs.angle (Sky.skyToUnitSphere p.ra p.dec true) (Sky.skyToUnitSphere q.ra q.dec true) ∧
        SurvPairs.angle (Sky.skyToUnitSphere p.ra p.dec true) (Sky.skyToUnitSphere q.ra q.dec true) < ((100 : ℚ) : ℝ)
  have s0 : ∀ a z z' w w', ¬ S (onEquator a z w) (onEquator a z' w') := fun a z z' w w' => by
    simp only [S, angle_0]; norm_num
  have s9 : ∀ a c z z' w w', (a = c + 90 ∨ c = a + 90) → S (onEquator a z w) (onEquator c z' w') := fun a c z z' w w' h => by
    simp only [S, angle_90 a c z z' w w' h]; norm_num
  have s18 : ∀ a c z z' w w', (a = c + 180 ∨ c = a + 180) → ¬ S (onEquator a z w) (onEquator c z' w') := fun a c z z' w w' h => by
    simp only [S, angle_180 a c z z' w w' h]; norm_num
  have hw : ∀ a z w, (onEquator a z w).weight = w := fun _ _ _ => rfl
  have f1 : ∀ z z' w w', S (onEquator 0 z w) (onEquator 90 z' w') := fun _ _ _ _ => s9 _ _ _ _ _ _ (.inr (by norm_num))
  have f2 : ∀ z z' w w', S (onEquator 90 z w) (onEquator 0 z' w') := fun _ _ _ _ => s9 _ _ _ _ _ _ (.inl (by norm_num))
  have f3 : ∀ z z' w w', S (onEquator 90 z w) (onEquator 180 z' w') := fun _ _ _ _ => s9 _ _ _ _ _ _ (.inr (by norm_num))
  have f4 : ∀ z z' w w', S (onEquator 180 z w) (onEquator 90 z' w') := fun _ _ _ _ => s9 _ _ _ _ _ _ (.inl (by norm_num))
  have f5 : ∀ z z' w w', ¬ S (onEquator 0 z w) (onEquator 180 z' w') := fun _ _ _ _ => s18 _ _ _ _ _ _ (.inr (by norm_num))
  have f6 : ∀ z z' w w', ¬ S (onEquator 180 z w) (onEquator 0 z' w') := fun _ _ _ _ => s18 _ _ _ _ _ _ (.inl (by norm_num))
  have dd : pairsWith S [onEquator 0 1 1, onEquator 90 2 1] [onEquator 0 1 1, onEquator 90 2 1] = 2 := by
    simp only [pairsWith, List.map_cons, List.map_nil, List.sum_cons, List.sum_nil, s0, f1, f2, if_true, if_false, hw]; norm_num
  have dr : pairsWith S [onEquator 0 1 1, onEquator 90 2 1] [onEquator 180 1 1, onEquator 0 1 1, onEquator 90 5 1] = 3 := by
    simp only [pairsWith, List.map_cons, List.map_nil, List.sum_cons, List.sum_nil, s0, f1, f2, f3, f5, if_true, if_false, hw]; norm_num
  have rr : pairsWith S [onEquator 180 1 1, onEquator 0 1 1, onEquator 90 5 1] [onEquator 180 1 1, onEquator 0 1 1, onEquator 90 5 1] = 4 := by
    simp only [pairsWith, List.map_cons, List.map_nil, List.sum_cons, List.sum_nil, s0, f1, f2, f3, f4, f5, f6, if_true, if_false, hw]; norm_num
  have key := ls_angular cats_ranks E rat hg (g := argsA) rfl rfl (by decide +kernel) 1 rfl rfl rfl rfl (by decide) (by decide +kernel) 0 30 100 rfl rfl S
    (fun _ _ => Iff.rfl) [onEquator 0 1 1, onEquator 90 2 1] [onEquator 180 1 1, onEquator 0 1 1, onEquator 90 5 1] rfl rfl 2 2 3 3
    (by simp [hw]; norm_num) (by simp [hw]; norm_num) (by simp [hw]; norm_num) (by simp [hw]; norm_num) (by norm_num) (by norm_num)
    ⟨onEquator 90 5 1, by simp, onEquator 0 1 1, by simp, f2 _ _ _ _⟩ (by rw [rr]; norm_num) o ho
  rw [dd, dr, rr] at key
  rw [key]
  norm_num

/-- Two ranks, and one. -/
def mach2 (_ : Nat) (_ : Option Nat) : Mach := dealt 2 fun _ => 1
def mach1 (_ : Nat) (_ : Option Nat) : Mach := dealt 1 fun _ => 1
theorem good2 (i : Nat) (j : Option Nat) : (mach2 i j).Good 2 4 := dealt_good 2 (by decide) _ (fun _ => by decide) 4 (by decide)
theorem good1 (i : Nat) (j : Option Nat) : (mach1 i j).Good 1 2 := dealt_good 1 (by decide) _ (fun _ => by decide) 2 (by decide)
def kw0 : Kw := {}
def kw1 : Kw := { factor := 2 }
def kw2 : Kw := { cosmo := some fun z => 3 * z }
def catsG : Nat → Cat := fun i => [(cats i).flatten]
def catsT : Nat → Cat := fun i => (cats i).map fun l => l.map (turned 77)
def catsZ : Nat → Cat := fun i => (cats i).map fun l => l.map (atRedshift fun _ => 8)
theorem catsT_ranks (i : Nat) : (catsT i).length = 2 := by unfold catsT; rw [List.length_map]; exact cats_ranks i
theorem catsZ_ranks (i : Nat) : (catsZ i).length = 2 := by unfold catsZ; rw [List.length_map]; exact cats_ranks i
theorem halfA : Half argsA.bins := fun _ => by decide +kernel

/-- The hypotheses of `tpcf_ranks`: the same objects on one rank. -/
example (E : PcfObj.Env) (rat : ℝ → ℚ) : tpcf E rat mach1 kw1 catsG argsA = tpcf E rat mach2 kw0 cats argsA :=
  tpcf_ranks (C := cats) (C' := catsG) cats_ranks (fun _ => rfl) (fun i => by simp [catsG]) E rat (mach := mach2) (mach' := mach1) (k := kw0) (k' := kw1)
    good2 good1 rfl (g := argsA) rfl halfA

/-- The hypotheses of `tpcf_turned` and `angular_redshifts`: other right ascensions and redshifts give the same value. -/
example (E : PcfObj.Env) (rat : ℝ → ℚ) : tpcf E rat mach2 kw0 catsT argsA = tpcf E rat mach2 kw0 cats argsA :=
  tpcf_turned (turned 77) (.inl ⟨77, rfl⟩) (C := cats) (C' := catsT) cats_ranks catsT_ranks
    (fun i => by unfold catsT; rw [List.map_flatten]) E rat (mach := mach2) (mach' := mach2) (k := kw0) good2 good2 (g := argsA) rfl halfA

example (E : PcfObj.Env) (rat : ℝ → ℚ) : tpcf E rat mach2 kw2 catsZ argsA = tpcf E rat mach2 kw0 cats argsA :=
  angular_redshifts (fun _ => 8) (C := cats) (C' := catsZ) cats_ranks catsZ_ranks
    (fun i => by unfold catsZ; rw [List.map_flatten]) E rat (mach := mach2) (mach' := mach2) (k := kw0) (k' := kw2) good2 good2 (g := argsA) rfl rfl (by decide +kernel)

/-- Two objects of the same direction at distances 3 and 6: in no bin from 1 to 5, though 3 apart. -/
example : bin { cosmo := some fun z => 3 * z } ⟨"1d", [1, 5], none, none⟩ (onEquator 10 1 1) (onEquator 10 2 1) = none ∧
    SurvPairs.sep (SurvPairs.cartesian (some fun z => 3 * z) (onEquator 10 1 1)) (SurvPairs.cartesian (some fun z => 3 * z) (onEquator 10 2 1)) = 3 := by
  refine ⟨line_of_sight_lost rfl (.inl rfl) _ _ rfl rfl (by norm_num [onEquator]) (by norm_num [onEquator]) (by norm_num [onEquator]), ?_⟩
  rw [(los_same_direction (fun z => 3 * z) (onEquator 10 1 1) (onEquator 10 2 1) rfl rfl (by norm_num [onEquator]) (by norm_num [onEquator])).1]
  norm_num [onEquator]

end NBK.SurvTpcf
