import Verif.SurvPairs.Model
import Verif.Pairs.Props
import Mathlib.Tactic.LinearCombination
import Mathlib.Tactic.Positivity
import Mathlib.Data.List.GetD

set_option linter.unusedSimpArgs false
/-!
# C99: pair counts of survey data

Every pair in the range of the bins is counted once, for any number of ranks and any balancing of the loads.
-/
noncomputable section
namespace NBK.SurvPairs
open Sky (Vec)

theorem cell_mono (b : ℝ × ℝ) (n : Nat) {x y : ℝ} (h : x ≤ y) : cell b n x ≤ cell b n y := by
  unfold cell
  apply List.countP_mono_left
  intro i _ hi
  simp only [decide_eq_true_eq] at hi ⊢
  exact hi.trans h

theorem mem_cells (b : ℝ × ℝ) (n : Nat) {x y s : ℝ} (h : |x - y| ≤ s) : cell b n x ∈ cells b n y s := by
  obtain ⟨h1, h2⟩ := abs_le.1 h
  simp only [cells, List.mem_filter, List.mem_range, decide_eq_true_eq]
  exact ⟨Nat.lt_succ_of_le (cell_mono b n (by linarith)), cell_mono b n (by linarith)⟩

theorem owner_mem (d : Domain) {a c : Vec} {s : ℝ} (hx : |a.x - c.x| ≤ s) (hy : |a.y - c.y| ≤ s) (hz : |a.z - c.z| ≤ s) :
    d.owner a ∈ d.ghosts s c := by
  simp only [Domain.owner, Domain.ghosts, List.mem_flatMap, List.mem_map]
  exact ⟨_, mem_cells _ _ hx, _, mem_cells _ _ hy, _, mem_cells _ _ hz, rfl⟩

theorem sep_sq (a c : Vec) : sep a c ^ 2 = (a.x - c.x) ^ 2 + (a.y - c.y) ^ 2 + (a.z - c.z) ^ 2 := by
  unfold sep Vec.norm
  rw [Real.sq_sqrt (by positivity)]
  rfl

theorem sep_nonneg (a c : Vec) : 0 ≤ sep a c := Real.sqrt_nonneg _

theorem owner_of_sep (d : Domain) {a c : Vec} {s : ℝ} (h : sep a c ≤ s) : d.owner a ∈ d.ghosts s c := by
  have h0 := sep_nonneg a c
  have h2 := sep_sq a c
  have hx := sq_nonneg (a.x - c.x); have hy := sq_nonneg (a.y - c.y); have hz := sq_nonneg (a.z - c.z)
  refine owner_mem d ?_ ?_ ?_ <;> refine le_trans (abs_le_of_sq_le_sq ?_ h0) h <;> linarith

theorem le_maxEdge {edges : List ℝ} {e : ℝ} (h : e ∈ edges) : e ≤ maxEdge edges := by
  unfold maxEdge
  have key : ∀ (l : List ℝ) (m : ℝ), m ≤ l.foldl max m ∧ ∀ e ∈ l, e ≤ l.foldl max m := by
    intro l
    induction l with
    | nil => intro m; simp
    | cons x l ih =>
      intro m
      obtain ⟨h1, h2⟩ := ih (max m x)
      refine ⟨(le_max_left m x).trans h1, ?_⟩
      intro e he
      rcases List.mem_cons.1 he with rfl | he
      · exact (le_max_right m e).trans h1
      · exact h2 e he
  exact (key edges 0).2 e h

/-- What Corrfunc counts in some bin lies below an edge. -/
theorem sepBin_some {edges : List ℝ} {v : ℝ} (h : sepBin edges v ≠ none) : ∃ e ∈ edges, v < e := by
  obtain ⟨i, hi⟩ := Option.ne_none_iff_exists'.1 h
  have hm := List.mem_of_find?_eq_some hi
  have hp := List.find?_some hi
  simp only [Bool.and_eq_true, decide_eq_true_eq] at hp
  have hi : i + 1 < edges.length := by have := List.mem_range.1 hm; omega
  rw [List.getD_eq_getElem _ _ hi] at hp
  exact ⟨_, List.getElem_mem hi, hp.2⟩

theorem bin2_some {m : Nat} {i j : Option Nat} (h : Pairs.bin2 m i j ≠ none) : i ≠ none ∧ j ≠ none := by
  cases i <;> cases j <;> simp [Pairs.bin2] at h ⊢

theorem piEdges_le {pimax e : ℝ} (h : e ∈ piEdges pimax) : e ≤ max pimax 0 := by
  simp only [piEdges, List.mem_map, List.mem_range] at h
  obtain ⟨i, hi, rfl⟩ := h
  rcases Nat.eq_zero_or_pos ⌊pimax⌋.toNat with h0 | h0
  · rw [h0]; simp
  · have hm : (0 : ℝ) < ⌊pimax⌋.toNat := by exact_mod_cast h0
    have hf : (1 : ℤ) ≤ ⌊pimax⌋ := by omega
    have hp : 1 ≤ pimax := by
      have := Int.le_floor.1 hf
      exact_mod_cast this
    refine le_trans ?_ (le_max_left _ _)
    rw [div_le_iff₀ hm]
    have : (i : ℝ) ≤ ⌊pimax⌋.toNat := by exact_mod_cast Nat.lt_succ_iff.1 hi
    nlinarith

theorem los_nonneg (a c : Vec) : 0 ≤ los a c := by
  unfold los
  exact div_nonneg (abs_nonneg _) (Real.sqrt_nonneg _)

theorem sep_le_perp_los (a c : Vec) : sep a c ^ 2 ≤ perp a c ^ 2 + los a c ^ 2 := by
  unfold perp
  rcases le_total 0 (sep a c ^ 2 - los a c ^ 2) with h | h
  · rw [Real.sq_sqrt h]; linarith
  · rw [Real.sqrt_eq_zero_of_nonpos h]; nlinarith

theorem unit_norm (o : Obj) : (cartesian none o).norm = 1 := by
  simp only [cartesian, Sky.skyToUnitSphere, Vec.norm, if_true]
  have h1 := Real.sin_sq_add_cos_sq (Sky.deg2rad o.ra)
  have h2 := Real.sin_sq_add_cos_sq (Sky.deg2rad o.dec)
  rw [show (Real.cos (Sky.deg2rad o.dec) * Real.cos (Sky.deg2rad o.ra)) ^ 2 +
      (Real.cos (Sky.deg2rad o.dec) * Real.sin (Sky.deg2rad o.ra)) ^ 2 + Real.sin (Sky.deg2rad o.dec) ^ 2 = 1 by
    linear_combination h2 + Real.cos (Sky.deg2rad o.dec) ^ 2 * h1]
  exact Real.sqrt_one

theorem norm_sq (a : Vec) : a.norm ^ 2 = a.x ^ 2 + a.y ^ 2 + a.z ^ 2 := by
  unfold Vec.norm; rw [Real.sq_sqrt (by positivity)]

/-- The chord of the angle between two points of the unit sphere is twice the sine of half the angle. -/
theorem chord {a c : Vec} (ha : a.norm = 1) (hc : c.norm = 1) :
    sep a c = 2 * Real.sin (0.5 * Sky.deg2rad (angle a c)) ∧ 0 ≤ angle a c ∧ angle a c ≤ 180 := by
  have h1 := norm_sq a; have h2 := norm_sq c
  rw [ha] at h1; rw [hc] at h2
  have hpi := Real.pi_pos
  have hs := sep_sq a c
  have hd : a.dot c = a.x * c.x + a.y * c.y + a.z * c.z := rfl
  have b1 : -1 ≤ a.dot c := by nlinarith [sq_nonneg (a.x + c.x), sq_nonneg (a.y + c.y), sq_nonneg (a.z + c.z)]
  have b2 : a.dot c ≤ 1 := by nlinarith [sq_nonneg (a.x - c.x), sq_nonneg (a.y - c.y), sq_nonneg (a.z - c.z)]
  have e : Sky.deg2rad (angle a c) = Real.arccos (a.dot c) := by
    unfold Sky.deg2rad angle Sky.rad2deg
    rw [ha, hc]; field_simp
  have t0 := Real.arccos_nonneg (a.dot c)
  have t1 := Real.arccos_le_pi (a.dot c)
  have ec := Real.cos_arccos b1 b2
  have ea : angle a c = Real.arccos (a.dot c) * (180 / Real.pi) := by
    unfold angle Sky.rad2deg; rw [ha, hc, one_mul, div_one]
  refine ⟨?_, ?_, ?_⟩
  · rw [e]
    generalize Real.arccos (a.dot c) = t at *
    have hsin : 0 ≤ Real.sin (0.5 * t) := Real.sin_nonneg_of_nonneg_of_le_pi (by linarith) (by linarith)
    have hc2 : Real.cos t = 1 - 2 * Real.sin (0.5 * t) ^ 2 := by
      have := Real.cos_sq' (0.5 * t)
      have h3 := Real.cos_two_mul (0.5 * t)
      rw [show 2 * (0.5 * t) = t by ring] at h3
      linarith
    have : sep a c ^ 2 = (2 * Real.sin (0.5 * t)) ^ 2 := by
      rw [hs]; nlinarith
    exact (sq_eq_sq₀ (sep_nonneg a c) (by linarith)).1 this
  · rw [ea]; positivity
  · rw [ea]
    calc _ ≤ Real.pi * (180 / Real.pi) := by gcongr
      _ = 180 := by field_simp

/-- The separation of any counted pair is at most `smoothing`: for angles, when the edges are at most 180 degrees. -/
theorem sep_le_smoothing (mode : Mode) (edges : List ℝ) (cosmo : Option (ℝ → ℝ)) (a b : Obj)
    (hang : mode.isAngular = true → maxEdge edges ≤ 180)
    (h : binOf mode edges (cartesian (if mode.isAngular then none else cosmo) a)
      (cartesian (if mode.isAngular then none else cosmo) b) ≠ none) :
    sep (cartesian (if mode.isAngular then none else cosmo) a) (cartesian (if mode.isAngular then none else cosmo) b) ≤
      smoothing mode edges := by
  cases mode with
  | d1 mu =>
    obtain ⟨e, he, hlt⟩ := sepBin_some (bin2_some h).1
    exact hlt.le.trans (le_maxEdge he)
  | d2 m mu =>
    obtain ⟨e, he, hlt⟩ := sepBin_some (bin2_some h).1
    exact hlt.le.trans (le_maxEdge he)
  | projected pimax =>
    obtain ⟨h1, h2⟩ := bin2_some h
    obtain ⟨e, he, hlt⟩ := sepBin_some h1
    obtain ⟨p, hp, hpl⟩ := sepBin_some h2
    have m1 := le_maxEdge he
    have m2 := piEdges_le hp
    simp only [Mode.isAngular, Bool.false_eq_true, if_false] at *
    generalize cartesian cosmo a = x at *
    generalize cartesian cosmo b = y at *
    have k1 := los_nonneg x y
    have k0 : 0 ≤ perp x y := Real.sqrt_nonneg _
    have hp0 : 0 < pimax := by
      rcases le_or_gt pimax 0 with hh | hh
      · rw [max_eq_right hh] at m2; linarith
      · exact hh
    rw [max_eq_left hp0.le] at m2
    have := sep_le_perp_los x y
    simp only [smoothing]
    apply Real.le_sqrt_of_sq_le
    have a1 : perp x y ^ 2 ≤ maxEdge edges ^ 2 := by apply pow_le_pow_left₀ k0; linarith
    have a2 : los x y ^ 2 ≤ pimax ^ 2 := by apply pow_le_pow_left₀ k1; linarith
    linarith
  | angular =>
    obtain ⟨e, he, hlt⟩ := sepBin_some h
    have m1 := le_maxEdge he
    have hm := hang rfl
    simp only [Mode.isAngular, if_true] at *
    obtain ⟨c1, c2, c3⟩ := chord (unit_norm a) (unit_norm b)
    rw [c1]
    simp only [smoothing]
    have hpi := Real.pi_pos
    have : Real.sin (0.5 * Sky.deg2rad (angle (cartesian none a) (cartesian none b))) ≤
        Real.sin (0.5 * Sky.deg2rad (maxEdge edges)) := by
      apply Real.sin_le_sin_of_le_of_le_pi_div_two
      · unfold Sky.deg2rad
        have : 0 ≤ angle (cartesian none a) (cartesian none b) * (Real.pi / 180) := by positivity
        linarith
      · unfold Sky.deg2rad
        calc 0.5 * (maxEdge edges * (Real.pi / 180)) ≤ 0.5 * (180 * (Real.pi / 180)) := by gcongr
          _ = Real.pi / 2 := by ring
      · unfold Sky.deg2rad
        have : angle (cartesian none a) (cartesian none b) ≤ maxEdge edges := by linarith
        gcongr
    linarith

/-- The shape of the result: one dimension for '1d' and 'angular'. -/
def Mode.shape (n : Nat) : Mode → List Nat
  | .d1 _ => [n]
  | .d2 m _ => [n, m]
  | .projected pimax => [n, ⌊pimax⌋.toNat]
  | .angular => [n]

theorem cell_lt (b : ℝ × ℝ) (n : Nat) (x : ℝ) (hn : 0 < n) : cell b n x < n := by
  have : cell b n x ≤ (List.range (n - 1)).length := List.countP_le_length
  rw [List.length_range] at this
  omega

/-- Every pair is counted once (see `survey_counts`), and the mean separation of an empty bin is zero if Corrfunc says so.

For angles the edges must not exceed 180 degrees.  `second = None` pairs the catalog with itself. -/
theorem survey_full (mode : Mode) (edges : List ℝ) (cosmo : Option (ℝ → ℝ)) (factor : Nat) (np : Nat → Nat)
    (rank : Nat → Nat → Nat → Nat) (sepAvg : Obj → Obj → ℚ) (q : ℚ) (sp : Bool) (tree : Pairs.Tree) (D1 : List (List Obj))
    (D2 : Option (List (List Obj))) (hcosmo : mode.isAngular = false → cosmo.isSome)
    (hang : mode.isAngular = true → maxEdge edges ≤ 180)
    (hm : ∀ m, mode.second = some m → 0 < m)
    (htree : tree.ranks.Perm (List.range D1.length))
    (hcells : ∀ axis, 0 < factor * np axis)
    (hrank : ∀ i j k, i < factor * np 0 → j < factor * np 1 → k < factor * np 2 → rank i j k < D1.length) :
    let dist := if mode.isAngular then none else cosmo
    let S2 := (D2.getD D1).flatten
    let bin := fun a b : Obj => binOf mode edges (cartesian dist a) (cartesian dist b)
    ∃ out, surveyPairs mode edges cosmo factor np rank sepAvg (Pairs.sepColumn mode.name) (some q) sp tree D1 D2 = .ok out ∧
      out.shape = mode.shape (edges.length - 1) ∧
      out.rows.length = (edges.length - 1) * mode.second.getD 1 ∧
      ∀ b < (edges.length - 1) * mode.second.getD 1, ∃ o, out.rows[b]? = some o ∧
        o.npairs = (D1.flatten.map fun a => S2.countP fun c => bin a c = some b).sum ∧
        o.wnpairs = some (D1.flatten.map fun a => (S2.map fun c => if bin a c = some b then a.weight * c.weight else 0).sum).sum ∧
        (0 < o.npairs → o.x = some ((D1.flatten.map fun a =>
          (S2.map fun c => if bin a c = some b then sepAvg a c else 0).sum).sum / o.npairs)) ∧
        (q = 0 → o.npairs = 0 → o.x = some 0) := by
  intro dist S2 bin
  have hno : (!mode.isAngular && cosmo.isNone) = false := by
    cases h : mode.isAngular
    · have := hcosmo h
      cases cosmo <;> simp_all
    · rfl
  have key := Pairs.pairCount_full ((edges.length - 1) * mode.second.getD 1) bin (fun a b => a.weight * b.weight) sepAvg mode.name q
    mode.second (fun k hk => ⟨hm k hk, by rw [hk]; exact Dvd.intro_left _ rfl⟩) sp tree
    ⟨fun a => (domain dist factor np rank D1 D2).owner (cartesian dist a),
      fun b => (domain dist factor np rank D1 D2).ghosts (smoothing mode edges) (cartesian dist b)⟩
  classical
  obtain ⟨out, hout, hs1, hs2, hl, hrow⟩ := key
    (if decide (smoothing mode edges > boxMax (domain dist factor np rank D1 D2) * 0.25) then 1 else 0) 0 D1 (D2.getD D1) htree
    (by
      intro a _
      simp only [Domain.owner]
      exact hrank _ _ _ (cell_lt _ _ _ (hcells 0)) (cell_lt _ _ _ (hcells 1)) (cell_lt _ _ _ (hcells 2)))
    (by
      intro a _ c _ hb
      exact owner_of_sep _ (sep_le_smoothing mode edges cosmo a c hang hb))
  refine ⟨mode.squeeze out, ?_, ?_, ?_, ?_⟩
  · unfold surveyPairs
    rw [hno]
    simp only [Bool.false_eq_true, if_false]
    exact congrArg (Except.map _) hout
  · cases mode with
    | d1 mu =>
      have := hs2 1 rfl
      simp only [Mode.squeeze, this, Mode.second, Option.getD_some, mul_one, Nat.div_one]
      rfl
    | d2 m mu =>
      have hm := hm m rfl
      have := hs2 m rfl
      simp only [Mode.squeeze, this, Mode.second, Option.getD_some, Nat.mul_div_cancel _ hm]
      rfl
    | projected pimax =>
      have hm := hm _ rfl
      have := hs2 _ rfl
      simp only [Mode.squeeze, this, Mode.second, Option.getD_some, Nat.mul_div_cancel _ hm]
      rfl
    | angular =>
      have := hs1 rfl
      simp only [Mode.squeeze, this, Mode.second, Option.getD_none, mul_one]
      rfl
  · cases mode <;> exact hl
  · cases mode <;> exact hrow

/-- Every pair is counted once: on any number of ranks, for any distribution of the catalogs, any balancing of the loads, any
chunks and any order of the reduction, the counts of a bin are those of all pairs of the two catalogs.

For angles the edges must not exceed 180 degrees.  `second = None` pairs the catalog with itself. -/
theorem survey_counts (mode : Mode) (edges : List ℝ) (cosmo : Option (ℝ → ℝ)) (factor : Nat) (np : Nat → Nat)
    (rank : Nat → Nat → Nat → Nat) (sepAvg : Obj → Obj → ℚ) (q : ℚ) (sp : Bool) (tree : Pairs.Tree) (D1 : List (List Obj))
    (D2 : Option (List (List Obj))) (hcosmo : mode.isAngular = false → cosmo.isSome)
    (hang : mode.isAngular = true → maxEdge edges ≤ 180)
    (hm : ∀ m, mode.second = some m → 0 < m)
    (htree : tree.ranks.Perm (List.range D1.length))
    (hcells : ∀ axis, 0 < factor * np axis)
    (hrank : ∀ i j k, i < factor * np 0 → j < factor * np 1 → k < factor * np 2 → rank i j k < D1.length) :
    let dist := if mode.isAngular then none else cosmo
    let S2 := (D2.getD D1).flatten
    let bin := fun a b : Obj => binOf mode edges (cartesian dist a) (cartesian dist b)
    ∃ out, surveyPairs mode edges cosmo factor np rank sepAvg (Pairs.sepColumn mode.name) (some q) sp tree D1 D2 = .ok out ∧
      out.shape = mode.shape (edges.length - 1) ∧
      out.rows.length = (edges.length - 1) * mode.second.getD 1 ∧
      ∀ b < (edges.length - 1) * mode.second.getD 1, ∃ o, out.rows[b]? = some o ∧
        o.npairs = (D1.flatten.map fun a => S2.countP fun c => bin a c = some b).sum ∧
        o.wnpairs = some (D1.flatten.map fun a => (S2.map fun c => if bin a c = some b then a.weight * c.weight else 0).sum).sum ∧
        (0 < o.npairs → o.x = some ((D1.flatten.map fun a =>
          (S2.map fun c => if bin a c = some b then sepAvg a c else 0).sum).sum / o.npairs)) := by
  intro dist S2 bin
  obtain ⟨out, h1, h2, h3, h4⟩ := survey_full mode edges cosmo factor np rank sepAvg q sp tree D1 D2 hcosmo hang hm htree hcells hrank
  refine ⟨out, h1, h2, h3, fun b hb => ?_⟩
  obtain ⟨o, k1, k2, k3, k4, -⟩ := h4 b hb
  exact ⟨o, k1, k2, k3, k4⟩

/-- Without a cosmology only angles can be counted. -/
theorem survey_needs_cosmo (mode : Mode) (edges : List ℝ) (factor : Nat) (np : Nat → Nat)
    (rank : Nat → Nat → Nat → Nat) (sepAvg : Obj → Obj → ℚ) (col : String) (junk : Pairs.Val) (sp : Bool) (tree : Pairs.Tree)
    (D1 : List (List Obj)) (D2 : Option (List (List Obj))) (h : mode.isAngular = false) :
    surveyPairs mode edges none factor np rank sepAvg col junk sp tree D1 D2 = .error .valueError := by
  unfold surveyPairs
  rw [h]; rfl

theorem minOf_le {l : List ℝ} {x : ℝ} (h : x ∈ l) : minOf l ≤ x := by
  have key : ∀ (l : List ℝ) (m : ℝ), l.foldl min m ≤ m ∧ ∀ e ∈ l, l.foldl min m ≤ e := by
    intro l
    induction l with
    | nil => intro m; simp
    | cons x l ih =>
      intro m
      obtain ⟨h1, h2⟩ := ih (min m x)
      refine ⟨h1.trans (min_le_left m x), ?_⟩
      intro e he
      rcases List.mem_cons.1 he with rfl | he
      · exact h1.trans (min_le_right m e)
      · exact h2 e he
  cases l with
  | nil => simp at h
  | cons y l =>
    rcases List.mem_cons.1 h with rfl | h
    · exact (key l _).1
    · exact (key l y).2 x h

theorem le_maxOf {l : List ℝ} {x : ℝ} (h : x ∈ l) : x ≤ maxOf l := by
  have key : ∀ (l : List ℝ) (m : ℝ), m ≤ l.foldl max m ∧ ∀ e ∈ l, e ≤ l.foldl max m := by
    intro l
    induction l with
    | nil => intro m; simp
    | cons x l ih =>
      intro m
      obtain ⟨h1, h2⟩ := ih (max m x)
      refine ⟨(le_max_left m x).trans h1, ?_⟩
      intro e he
      rcases List.mem_cons.1 he with rfl | he
      · exact (le_max_right m e).trans h1
      · exact h2 e he
  cases l with
  | nil => simp at h
  | cons y l =>
    rcases List.mem_cons.1 h with rfl | h
    · exact (key l _).1
    · exact (key l y).2 x h

/-- The grid holds every object of both catalogs: strictly, unless all objects of the catalog agree in the coordinate. -/
theorem grid_contains (c1 : List ℝ) (c2 : Option (List ℝ)) (n : Nat) (hn : 0 < n) :
    (∀ x ∈ c1, edge (globalBounds c1 c2) n 0 ≤ x ∧ x ≤ edge (globalBounds c1 c2) n n ∧
      ((∃ y ∈ c1, y ≠ x) → edge (globalBounds c1 c2) n 0 < x ∧ x < edge (globalBounds c1 c2) n n)) ∧
    (∀ l, c2 = some l → ∀ x ∈ l, edge (globalBounds c1 c2) n 0 ≤ x ∧ x ≤ edge (globalBounds c1 c2) n n ∧
      ((∃ y ∈ l, y ≠ x) → edge (globalBounds c1 c2) n 0 < x ∧ x < edge (globalBounds c1 c2) n n)) := by
  have hn' : (n : ℝ) ≠ 0 := by exact_mod_cast hn.ne'
  have e0 : ∀ b, edge b n 0 = b.1 := by intro b; simp [edge]
  have en : ∀ b, edge b n n = b.2 := by intro b; unfold edge; field_simp; ring
  have base : ∀ (l : List ℝ) (x : ℝ), x ∈ l → (bounds l).1 ≤ x ∧ x ≤ (bounds l).2 ∧
      ((∃ y ∈ l, y ≠ x) → (bounds l).1 < x ∧ x < (bounds l).2) := by
    intro l x hx
    have h1 := minOf_le hx
    have h2 := le_maxOf hx
    have h3 : 0 ≤ |maxOf l - minOf l| := abs_nonneg _
    refine ⟨?_, ?_, ?_⟩
    · simp only [bounds]; linarith
    · simp only [bounds]; linarith
    · rintro ⟨y, hy, hne⟩
      have g1 := minOf_le hy
      have g2 := le_maxOf hy
      have : 0 < |maxOf l - minOf l| := by
        rw [abs_pos]
        intro h0
        apply hne
        linarith
      constructor
      · simp only [bounds]; linarith
      · simp only [bounds]; linarith
  rw [e0, en]
  refine ⟨fun x hx => ?_, fun l hl x hx => ?_⟩
  · obtain ⟨a, b, c⟩ := base c1 x hx
    cases c2 with
    | none => exact ⟨a, b, c⟩
    | some l =>
      simp only [globalBounds]
      exact ⟨(min_le_left _ _).trans a, b.trans (le_max_left _ _),
        fun h => ⟨lt_of_le_of_lt (min_le_left _ _) (c h).1, lt_of_lt_of_le (c h).2 (le_max_left _ _)⟩⟩
  · subst hl
    obtain ⟨a, b, c⟩ := base l x hx
    simp only [globalBounds]
    exact ⟨(min_le_right _ _).trans a, b.trans (le_max_right _ _),
      fun h => ⟨lt_of_le_of_lt (min_le_right _ _) (c h).1, lt_of_lt_of_le (c h).2 (le_max_right _ _)⟩⟩

/-- A flat catalog (all on the equator, say) has a grid of empty cells: all edges coincide with the coordinate of the objects. -/
theorem grid_flat (x : ℝ) (m n i : Nat) (hm : 0 < m) : edge (globalBounds (List.replicate m x) none) n i = x := by
  have h : ∀ k, (List.replicate k x).foldl min x = x ∧ (List.replicate k x).foldl max x = x := by
    intro k
    induction k with
    | zero => simp
    | succ k ih => simpa [List.replicate_succ] using ih
  obtain ⟨k, rfl⟩ : ∃ k, m = k + 1 := ⟨m - 1, by omega⟩
  simp [globalBounds, bounds, edge, List.replicate_succ, minOf, maxOf, h]

/-- The bins along the line of sight are one unit deep if and only if `pimax` is a whole number: the documentation promises it
for any `pimax`. -/
theorem piEdges_unit (pimax : ℝ) (h : 1 ≤ pimax) :
    (∀ i, i < ⌊pimax⌋.toNat → (piEdges pimax).getD (i + 1) 0 - (piEdges pimax).getD i 0 = 1) ↔ ∃ n : Nat, pimax = n := by
  have hf : (1 : ℤ) ≤ ⌊pimax⌋ := Int.le_floor.2 (by exact_mod_cast h)
  have hm : 0 < ⌊pimax⌋.toNat := by omega
  generalize hk : ⌊pimax⌋.toNat = m at *
  have hm' : (0 : ℝ) < m := by exact_mod_cast hm
  have get : ∀ i, i ≤ m → (piEdges pimax).getD i 0 = pimax * i / m := by
    intro i hi
    have hl : i < (piEdges pimax).length := by simp [piEdges, hk]; omega
    rw [List.getD_eq_getElem _ _ hl]
    simp [piEdges, hk]
  constructor
  · intro hu
    have := hu 0 hm
    rw [get 0 (by omega), get 1 (by omega)] at this
    refine ⟨m, ?_⟩
    field_simp at this
    push_cast at this
    linarith
  · rintro ⟨n, rfl⟩ i hi
    have : m = n := by rw [← hk]; simp
    subst this
    rw [get i (by omega), get (i + 1) (by omega)]
    push_cast
    field_simp
    ring

/-- `pimax = 3/2` has one bin of depth 3/2. -/
theorem piEdges_case : ¬ ∀ i, i < ⌊(3 / 2 : ℝ)⌋.toNat → (piEdges (3 / 2)).getD (i + 1) 0 - (piEdges (3 / 2)).getD i 0 = 1 := by
  rw [piEdges_unit _ (by norm_num)]
  rintro ⟨n, hn⟩
  have : (3 : ℝ) = 2 * n := by linarith
  have : (3 : ℕ) = 2 * n := by exact_mod_cast this
  omega

/-- The limit of 180 degrees matters: for edges up to 360 degrees, nothing but objects in the same cell is sent. -/
theorem smoothing_beyond : smoothing .angular [1, 360] = 0 := by
  have : maxEdge [1, 360] = 360 := by norm_num [maxEdge]
  simp only [smoothing, this, Sky.deg2rad]
  rw [show 0.5 * (360 * (Real.pi / 180)) = Real.pi by ring, Real.sin_pi, mul_zero]

/-- A case: the separations up to 10 of three objects on two ranks, with two bins of mu and a grid of 2 x 2 x 4 cells. -/
theorem survey_case : ∃ out, surveyPairs (.d2 2 fun _ _ => some 1) [1, 10] (some fun z => 3 * z) 2 (fun i => if i = 2 then 2 else 1)
    (fun i j k => (i + j + k) % 2) (fun _ _ => 1) "savg" (some 0) true (.node (.leaf 1) (.leaf 0))
    [[⟨10, 0, 1, 1⟩, ⟨20, 0, 1, 2⟩], [⟨30, 5, 2, 3⟩]] none = .ok out ∧ out.shape = [1, 2] := by
  obtain ⟨out, h, hs, _⟩ := survey_counts (.d2 2 fun _ _ => some 1) [1, 10] (some fun z => 3 * z) 2 (fun i => if i = 2 then 2 else 1)
    (fun i j k => (i + j + k) % 2) (fun _ _ => 1) 0 true (.node (.leaf 1) (.leaf 0))
    [[⟨10, 0, 1, 1⟩, ⟨20, 0, 1, 2⟩], [⟨30, 5, 2, 3⟩]] none (by simp) (by simp [Mode.isAngular]) (by simp [Mode.second])
    (by decide) (by intro axis; split <;> omega) (by intros; simp; omega)
  exact ⟨out, h, hs⟩

/-! ## The positions, cells and bins -/

/-- The position lies at the comoving distance of its redshift, in the direction of its right ascension and declination. -/
theorem cartesian_spec (r : ℝ → ℝ) (o : Obj) :
    (cartesian (some r) o).norm = |r o.redshift| ∧ (cartesian none o).norm = 1 ∧
    cartesian (some r) o = ⟨r o.redshift * (cartesian none o).x, r o.redshift * (cartesian none o).y,
      r o.redshift * (cartesian none o).z⟩ := by
  have h1 := unit_norm o
  refine ⟨?_, h1, rfl⟩
  have h2 := norm_sq (cartesian none o)
  rw [h1] at h2
  have h3 : (cartesian (some r) o).norm ^ 2 = (r o.redshift) ^ 2 := by
    rw [norm_sq, show cartesian (some r) o = ⟨r o.redshift * (cartesian none o).x, r o.redshift * (cartesian none o).y,
      r o.redshift * (cartesian none o).z⟩ from rfl]
    simp only
    linear_combination -(r o.redshift) ^ 2 * h2
  rw [← Real.sqrt_sq (show 0 ≤ (cartesian (some r) o).norm from Real.sqrt_nonneg _), h3, Real.sqrt_sq_eq_abs]

/-- A coordinate within the grid lies in its cell. -/
theorem cell_spec (b : ℝ × ℝ) (n : Nat) (hn : 0 < n) (hb : b.1 < b.2) {x : ℝ} (h0 : b.1 ≤ x) (h1 : x < b.2) :
    cell b n x < n ∧ edge b n (cell b n x) ≤ x ∧ x < edge b n (cell b n x + 1) := by
  have hn' : (0 : ℝ) < n := by exact_mod_cast hn
  have mono : ∀ i j : Nat, i ≤ j → edge b n i ≤ edge b n j := by
    intro i j hij
    have : (i : ℝ) ≤ j := by exact_mod_cast hij
    unfold edge
    have hbb : 0 ≤ b.2 - b.1 := by linarith
    gcongr
  have e0 : edge b n 0 = b.1 := by simp [edge]
  have en : edge b n n = b.2 := by unfold edge; field_simp; ring
  -- the number of edges below is the position
  have key : ∀ m : Nat, edge b n 0 ≤ x →
      edge b n ((List.range m).countP fun i => edge b n (i + 1) ≤ x) ≤ x ∧
      ((List.range m).countP (fun i => edge b n (i + 1) ≤ x) < m →
        x < edge b n ((List.range m).countP (fun i => edge b n (i + 1) ≤ x) + 1)) := by
    intro m hx
    induction m with
    | zero => simpa using hx
    | succ m ih =>
      rw [List.range_succ, List.countP_append]
      have hle : (List.range m).countP (fun i => edge b n (i + 1) ≤ x) ≤ m := by
        simpa using List.countP_le_length (p := fun i => decide (edge b n (i + 1) ≤ x)) (l := List.range m)
      by_cases h : edge b n (m + 1) ≤ x
      · have hc : (List.range m).countP (fun i => edge b n (i + 1) ≤ x) = m := by
          rcases Nat.lt_or_ge ((List.range m).countP (fun i => edge b n (i + 1) ≤ x)) m with hlt | hge
          · have := ih.2 hlt
            have := mono _ (m + 1) (show (List.range m).countP (fun i => edge b n (i + 1) ≤ x) + 1 ≤ m + 1 by omega)
            linarith
          · omega
        have h1 : List.countP (fun i => decide (edge b n (i + 1) ≤ x)) [m] = 1 := by simp [h]
        rw [hc, h1]
        exact ⟨h, fun h => absurd h (lt_irrefl _)⟩
      · have h0 : List.countP (fun i => decide (edge b n (i + 1) ≤ x)) [m] = 0 := by simp [h]
        rw [h0, Nat.add_zero]
        refine ⟨ih.1, fun _ => ?_⟩
        rcases Nat.lt_or_ge ((List.range m).countP (fun i => edge b n (i + 1) ≤ x)) m with hlt | hge
        · exact ih.2 hlt
        · have : (List.range m).countP (fun i => edge b n (i + 1) ≤ x) = m := by omega
          rw [this]; exact not_le.1 h
  obtain ⟨k1, k2⟩ := key (n - 1) (by rw [e0]; exact h0)
  have hlt := cell_lt b n x hn
  refine ⟨hlt, k1, ?_⟩
  rcases Nat.lt_or_ge (cell b n x) (n - 1) with h | h
  · exact k2 h
  · have : cell b n x + 1 = n := by omega
    rw [this, en]; exact h1

/-- A separation is counted in the bin whose edges enclose it, the lower edge included. -/
theorem sepBin_spec (edges : List ℝ) (hs : edges.Pairwise (· < ·)) (v : ℝ) (i : Nat) :
    sepBin edges v = some i ↔ i + 1 < edges.length ∧ edges.getD i 0 ≤ v ∧ v < edges.getD (i + 1) 0 := by
  have mono : ∀ i j : Nat, i ≤ j → j < edges.length → edges.getD i 0 ≤ edges.getD j 0 := by
    intro i j hij hj
    rcases Nat.lt_or_ge i j with h | h
    · rw [List.getD_eq_getElem _ _ (by omega), List.getD_eq_getElem _ _ hj]
      exact (List.pairwise_iff_getElem.1 hs i j (by omega) hj h).le
    · rw [show i = j by omega]
  unfold sepBin
  rw [List.find?_eq_some_iff_getElem]
  simp only [List.length_range, List.getElem_range, Bool.and_eq_true, decide_eq_true_eq, Bool.not_eq_true', Bool.and_eq_false_iff,
    decide_eq_false_iff_not]
  constructor
  · rintro ⟨⟨h1, h2⟩, j, hj, rfl, -⟩
    exact ⟨by omega, h1, h2⟩
  · rintro ⟨h, h1, h2⟩
    refine ⟨⟨h1, h2⟩, i, by omega, rfl, fun j hj => ?_⟩
    right
    have := mono (j + 1) i (by omega) (by omega)
    linarith

/-- The separations along and across the line of sight make up the separation. -/
theorem los_perp (a c : Vec) : los a c ≤ sep a c ∧ perp a c ^ 2 + los a c ^ 2 = sep a c ^ 2 ∧
    (a + c).norm * los a c = |a.norm ^ 2 - c.norm ^ 2| := by
  have hs := sep_sq a c
  have hn : (a + c).norm ^ 2 = (a.x + c.x) ^ 2 + (a.y + c.y) ^ 2 + (a.z + c.z) ^ 2 := norm_sq (a + c)
  have hd : (a - c).dot (a + c) = (a.x - c.x) * (a.x + c.x) + (a.y - c.y) * (a.y + c.y) + (a.z - c.z) * (a.z + c.z) := rfl
  have hcs : ((a - c).dot (a + c)) ^ 2 ≤ sep a c ^ 2 * (a + c).norm ^ 2 := by
    rw [hs, hn, hd]
    nlinarith [sq_nonneg ((a.x - c.x) * (a.y + c.y) - (a.y - c.y) * (a.x + c.x)),
      sq_nonneg ((a.x - c.x) * (a.z + c.z) - (a.z - c.z) * (a.x + c.x)),
      sq_nonneg ((a.y - c.y) * (a.z + c.z) - (a.z - c.z) * (a.y + c.y))]
  have h0 : 0 ≤ (a + c).norm := Real.sqrt_nonneg _
  have hs0 := sep_nonneg a c
  have habs : |(a - c).dot (a + c)| ≤ sep a c * (a + c).norm := by
    apply abs_le_of_sq_le_sq _ (by positivity)
    rw [mul_pow]; exact hcs
  have hl : los a c ≤ sep a c := by
    unfold los
    rcases h0.eq_or_lt with h | h
    · rw [← h]; simpa using hs0
    · rw [div_le_iff₀ h]; exact habs
  have hl0 := los_nonneg a c
  refine ⟨hl, ?_, ?_⟩
  · unfold perp
    rw [Real.sq_sqrt (by nlinarith)]; ring
  · have e : (a - c).dot (a + c) = a.norm ^ 2 - c.norm ^ 2 := by rw [hd, norm_sq, norm_sq]; ring
    unfold los
    rcases h0.eq_or_lt with h | h
    · rw [← h, zero_mul, ← e]
      rw [← h, mul_zero] at habs
      exact (le_antisymm habs (abs_nonneg _)).symm
    · rw [mul_div_cancel₀ _ h.ne', e]

/-- The angle between two objects on the sky. -/
theorem angle_spec (a c : Obj) : Real.cos (Sky.deg2rad (angle (cartesian none a) (cartesian none c))) =
    Real.sin (Sky.deg2rad a.dec) * Real.sin (Sky.deg2rad c.dec) +
      Real.cos (Sky.deg2rad a.dec) * Real.cos (Sky.deg2rad c.dec) * Real.cos (Sky.deg2rad a.ra - Sky.deg2rad c.ra) := by
  have ha := unit_norm a
  have hc := unit_norm c
  have h2 := norm_sq (cartesian none a)
  have h3 := norm_sq (cartesian none c)
  rw [ha] at h2; rw [hc] at h3
  have hd : (cartesian none a).dot (cartesian none c) = (cartesian none a).x * (cartesian none c).x +
      (cartesian none a).y * (cartesian none c).y + (cartesian none a).z * (cartesian none c).z := rfl
  have hdr : ∀ x, Sky.deg2rad (Sky.rad2deg x) = x := by
    intro x
    have := Real.pi_pos
    unfold Sky.deg2rad Sky.rad2deg
    field_simp
  unfold angle
  rw [hdr, ha, hc, mul_one, div_one, Real.cos_arccos]
  · rw [hd]
    simp only [cartesian, Sky.skyToUnitSphere, if_true, Real.cos_sub]
    ring
  · rw [hd]
    nlinarith [sq_nonneg ((cartesian none a).x + (cartesian none c).x), sq_nonneg ((cartesian none a).y + (cartesian none c).y),
      sq_nonneg ((cartesian none a).z + (cartesian none c).z)]
  · rw [hd]
    nlinarith [sq_nonneg ((cartesian none a).x - (cartesian none c).x), sq_nonneg ((cartesian none a).y - (cartesian none c).y),
      sq_nonneg ((cartesian none a).z - (cartesian none c).z)]

/-- The grid of the domain contains the objects of both catalogs, on all axes. -/
theorem domain_contains (dist : Option (ℝ → ℝ)) (factor : Nat) (np : Nat → Nat) (rank : Nat → Nat → Nat → Nat) (D1 : List (List Obj))
    (D2 : Option (List (List Obj))) (axis : Nat) (hn : 0 < factor * np axis) (o : Obj)
    (ho : o ∈ D1.flatten ∨ ∃ D, D2 = some D ∧ o ∈ D.flatten) :
    let d := domain dist factor np rank D1 D2
    edge (d.b axis) (d.n axis) 0 ≤ comp axis (cartesian dist o) ∧ comp axis (cartesian dist o) ≤ edge (d.b axis) (d.n axis) (d.n axis) := by
  have h := grid_contains (coords dist axis D1) (D2.map (coords dist axis)) (factor * np axis) hn
  rcases ho with ho | ⟨D, rfl, ho⟩
  · have := h.1 _ (List.mem_map.2 ⟨o, ho, rfl⟩)
    exact ⟨this.1, this.2.1⟩
  · have := h.2 _ rfl _ (List.mem_map.2 ⟨o, ho, rfl⟩)
    exact ⟨this.1, this.2.1⟩

/-- The coordinates of the objects are inside of the grid. -/
theorem domain_xyz (dist : Option (ℝ → ℝ)) (factor : Nat) (np : Nat → Nat) (rank : Nat → Nat → Nat → Nat) (D1 : List (List Obj))
    (D2 : Option (List (List Obj))) (hn : ∀ axis < 3, 0 < factor * np axis) (o : Obj) (ho : o ∈ D1.flatten ∨ ∃ D, D2 = some D ∧ o ∈ D.flatten) :
    let d := domain dist factor np rank D1 D2
    (edge (d.b 0) (d.n 0) 0 ≤ (cartesian dist o).x ∧ (cartesian dist o).x ≤ edge (d.b 0) (d.n 0) (d.n 0)) ∧
    (edge (d.b 1) (d.n 1) 0 ≤ (cartesian dist o).y ∧ (cartesian dist o).y ≤ edge (d.b 1) (d.n 1) (d.n 1)) ∧
    edge (d.b 2) (d.n 2) 0 ≤ (cartesian dist o).z ∧ (cartesian dist o).z ≤ edge (d.b 2) (d.n 2) (d.n 2) :=
  ⟨domain_contains dist factor np rank D1 D2 0 (hn 0 (by omega)) o ho, domain_contains dist factor np rank D1 D2 1 (hn 1 (by omega)) o ho,
    domain_contains dist factor np rank D1 D2 2 (hn 2 (by omega)) o ho⟩

end NBK.SurvPairs
