import Verif.SurvTpcf.Lemmas
import Verif.Sky.Props

set_option linter.unusedSimpArgs false

/-! C141: `SurveyData2PCF` of distributed catalogs. -/
noncomputable section
namespace NBK.SurvTpcf
open BoxTpcf (tally tallyN tallyS)
open Sky (Vec)

/-- C141: a pair count is that of all pairs of the objects, on any number of ranks, for any distribution of the objects over them, any balance of the
loads, any order of the reduction and any chunks. -/
theorem count_eq (rat : ℝ → ℚ) (M : Mach) (P : Nat) (k : Kw) (hM : M.Good P k.factor) (b : Bins) {md : Pairs.Mode}
    (hck : Pairs.checkArgs b.mode b.edges b.Nmu b.pimax = .ok md) (hb : Half b) (first : Cat) (second : Option Cat) (same : Bool) (hP : first.length = P) :
    countSurv rat M k b first second same =
      if b.mode ≠ "angular" ∧ k.cosmo = none then .error .valueError
      else if b.mode = "2d" ∧ b.Nmu = some 0 then .error .valueError
      else .ok (direct rat k b (all first) (second.map all) same) :=
  count_direct rat M P k hM b hck hb first second same hP

/-- Two sets of catalogs hold the same objects, those of the second changed by `φ`, on communicators of `P` and `P'` ranks. -/
structure Same (φ : Obj → Obj) (P P' : Nat) (C C' : Nat → Cat) : Prop where
  ranks : ∀ i, (C i).length = P
  ranks' : ∀ i, (C' i).length = P'
  rows : ∀ i, (all (C' i)).Perm ((all (C i)).map φ)
  weight : ∀ p, (φ p).weight = p.weight

theorem ws_perm {φ : Obj → Obj} (hw : ∀ p, (φ p).weight = p.weight) {X X' : List Obj} (h : X'.Perm (X.map φ)) : (ws X').Perm (ws X) := by
  have := h.map SurvPairs.Obj.weight
  rw [List.map_map] at this
  have e : (SurvPairs.Obj.weight ∘ φ) = SurvPairs.Obj.weight := funext hw
  rw [e] at this
  exact this

theorem total_perm {X X' : List ℚ} {Y Y' : Option (List ℚ)} (hX : X'.Perm X) (hY : (Y' = none ∧ Y = none) ∨ ∃ y y', Y' = some y' ∧ Y = some y ∧ y'.Perm y) :
    total X' Y' = total X Y := by
  rcases hY with ⟨rfl, rfl⟩ | ⟨y, y', rfl, rfl, h⟩
  · simp only [total, Option.elim_none, hX.sum_eq, (hX.map _).sum_eq]
  · simp only [total, Option.elim_some, hX.sum_eq, h.sum_eq]

theorem direct_same {φ : Obj → Obj} (hw : ∀ p, (φ p).weight = p.weight) (rat : ℝ → ℚ) (k k' : Kw) (b : Bins) (X X' : List Obj) (Y Y' : Option (List Obj))
    (hX : X'.Perm (X.map φ)) (hY : (Y' = none ∧ Y = none) ∨ ∃ y y', Y' = some y' ∧ Y = some y ∧ y'.Perm (y.map φ)) (same : Bool)
    (hbin : ∀ p ∈ X, ∀ q ∈ Y.getD X, bin k' b (φ p) (φ q) = bin k b p q)
    (hsep : ∀ p ∈ X, ∀ q ∈ Y.getD X, sep rat k' b (φ p) (φ q) = sep rat k b p q) :
    direct rat k' b X' Y' same = direct rat k b X Y same := by
  unfold direct
  have hYX : (Y'.getD X').Perm ((Y.getD X).map φ) := by
    rcases hY with ⟨rfl, rfl⟩ | ⟨y, y', rfl, rfl, h⟩
    · exact hX
    · exact h
  rw [BoxTpcf.tally_congr (nbins b) hX hYX hbin hw hsep]
  have ht : total (ws X') (if same = true then none else Y'.map ws) = total (ws X) (if same = true then none else Y.map ws) := by
    apply total_perm (ws_perm hw hX)
    rcases hY with ⟨rfl, rfl⟩ | ⟨y, y', rfl, rfl, h⟩
    · left; simp
    · cases same with
      | true => left; simp
      | false => right; exact ⟨ws y, ws y', by simp, by simp, ws_perm hw h⟩
  have hi : Y'.isSome = Y.isSome := by rcases hY with ⟨rfl, rfl⟩ | ⟨y, y', rfl, rfl, h⟩ <;> rfl
  simp only [ht, hi]

/-- C141: catalogs whose pairs fall into the same bins give the same results, whatever the ranks do. -/
theorem tpcf_same {φ : Obj → Obj} {P P' : Nat} {C C' : Nat → Cat} (h : Same φ P P' C C') (E : PcfObj.Env) (rat : ℝ → ℚ)
    {mach mach' : Nat → Option Nat → Mach} {k k' : Kw} (hm : ∀ i j, (mach i j).Good P k.factor) (hm' : ∀ i j, (mach' i j).Good P' k'.factor)
    {g : PcfObj.Args} (hs : PcfObj.counterOf g = .survey) (hb : Half g.bins) (hk : g.bins.mode ≠ "angular" → (k'.cosmo = none ↔ k.cosmo = none))
    (hbin : ∀ i j, ∀ p ∈ all (C i), ∀ q ∈ all (C j), bin k' g.bins (φ p) (φ q) = bin k g.bins p q)
    (hsep : ∀ i j, ∀ p ∈ all (C i), ∀ q ∈ all (C j), sep rat k' g.bins (φ p) (φ q) = sep rat k g.bins p q) :
    tpcf E rat mach' k' C' g = tpcf E rat mach k C g := by
  unfold tpcf
  refine new_congr (e := envOf E rat mach k C) (e' := envOf E rat mach' k' C') hs ?_ rfl rfl
  intro md hck i j
  unfold envOf
  simp only [if_true]
  rw [count_eq rat (mach' i j) P' k' (hm' i j) g.bins hck hb (C' i) (j.map C') _ (h.ranks' i),
    count_eq rat (mach i j) P k (hm i j) g.bins hck hb (C i) (j.map C) _ (h.ranks i)]
  have h1 : (g.bins.mode ≠ "angular" ∧ k'.cosmo = none) ↔ (g.bins.mode ≠ "angular" ∧ k.cosmo = none) :=
    ⟨fun ⟨a, c⟩ => ⟨a, (hk a).mp c⟩, fun ⟨a, c⟩ => ⟨a, (hk a).mpr c⟩⟩
  simp only [h1]
  have hd : direct rat k' g.bins (all (C' i)) ((j.map C').map all) (decide (j = some i)) = direct rat k g.bins (all (C i)) ((j.map C).map all) (decide (j = some i)) := by
    apply direct_same h.weight rat k k' g.bins _ _ _ _ (h.rows i)
    · cases j with
      | none => left; exact ⟨rfl, rfl⟩
      | some j => right; exact ⟨_, _, rfl, rfl, h.rows j⟩
    · cases j with
      | none => exact hbin i i
      | some j => exact hbin i j
    · cases j with
      | none => exact hsep i i
      | some j => exact hsep i j
  rw [hd]

/-- C141: the results do not depend on the number of ranks, on where the objects are, nor on how the ranks share the work. -/
theorem tpcf_ranks {P P' : Nat} {C C' : Nat → Cat} (hP : ∀ i, (C i).length = P) (hP' : ∀ i, (C' i).length = P') (hall : ∀ i, (C' i).flatten.Perm (C i).flatten)
    (E : PcfObj.Env) (rat : ℝ → ℚ) {mach mach' : Nat → Option Nat → Mach} {k k' : Kw} (hm : ∀ i j, (mach i j).Good P k.factor)
    (hm' : ∀ i j, (mach' i j).Good P' k'.factor) (hk : k'.cosmo = k.cosmo) {g : PcfObj.Args} (hs : PcfObj.counterOf g = .survey) (hb : Half g.bins) :
    tpcf E rat mach' k' C' g = tpcf E rat mach k C g := by
  have hp : ∀ o, posOf k' g.bins o = posOf k g.bins o := fun o => by unfold posOf distOf; rw [hk]
  refine tpcf_same (φ := id) ⟨hP, hP', fun i => by rw [List.map_id]; exact hall i, fun _ => rfl⟩ E rat hm hm' hs hb (fun _ => by rw [hk]) ?_ ?_
  · intro i j p _ q _
    simp only [bin, hp, id]
  · intro i j p _ q _
    simp only [sep, hp, id]

/-! ### Rotations of the sky -/

theorem norm_dot (a : Vec) : a.norm = Real.sqrt (a.dot a) := by
  unfold Sky.Vec.norm Sky.Vec.dot
  congr 1
  ring

theorem sep_dot (a c : Vec) : SurvPairs.sep a c = Real.sqrt (a.dot a - 2 * a.dot c + c.dot c) := by
  unfold SurvPairs.sep
  rw [norm_dot]
  congr 1
  simp only [Sky.Vec.dot, Sky.sub_x, Sky.sub_y, Sky.sub_z]
  ring

theorem los_dot (a c : Vec) : SurvPairs.los a c = |a.dot a - c.dot c| / Real.sqrt (a.dot a + 2 * a.dot c + c.dot c) := by
  unfold SurvPairs.los
  rw [norm_dot]
  congr 2
  · simp only [Sky.Vec.dot, Sky.sub_x, Sky.sub_y, Sky.sub_z, Sky.add_x, Sky.add_y, Sky.add_z]
    ring
  · simp only [Sky.Vec.dot, Sky.sub_x, Sky.sub_y, Sky.sub_z, Sky.add_x, Sky.add_y, Sky.add_z]
    ring

/-- The bin and the separation of two positions depend on their scalar products only. -/
theorem bin_dot {a c a' c' : Vec} (h1 : a'.dot a' = a.dot a) (h2 : a'.dot c' = a.dot c) (h3 : c'.dot c' = c.dot c) (b : Bins) :
    SurvPairs.binOf (modeOf b) (edges b) a' c' = SurvPairs.binOf (modeOf b) (edges b) a c ∧ sepOf (modeOf b) a' c' = sepOf (modeOf b) a c := by
  have hs : SurvPairs.sep a' c' = SurvPairs.sep a c := by rw [sep_dot, sep_dot, h1, h2, h3]
  have hl : SurvPairs.los a' c' = SurvPairs.los a c := by rw [los_dot, los_dot, h1, h2, h3]
  have hp : SurvPairs.perp a' c' = SurvPairs.perp a c := by unfold SurvPairs.perp; rw [hs, hl]
  have ha : SurvPairs.angle a' c' = SurvPairs.angle a c := by
    unfold SurvPairs.angle
    rw [norm_dot, norm_dot, norm_dot a, norm_dot c, h1, h2, h3]
  have hmu : ∀ n, muBin n a' c' = muBin n a c := fun n => by unfold muBin muOf; rw [hs, hl]
  unfold modeOf
  split
  · exact ⟨by simp only [SurvPairs.binOf, hs, hmu], by simp only [sepOf, hs]⟩
  split
  · exact ⟨by simp only [SurvPairs.binOf, hs, hmu], by simp only [sepOf, hs]⟩
  split
  · exact ⟨by simp only [SurvPairs.binOf, hp, hl], by simp only [sepOf, hp]⟩
  · exact ⟨by simp only [SurvPairs.binOf, ha], by simp only [sepOf, ha]⟩

/-- The direction of an object. -/
def dir (o : Obj) : Vec := Sky.skyToUnitSphere o.ra o.dec true

theorem pos_dot (k : Kw) (b : Bins) (p q : Obj) : (posOf k b p).dot (posOf k b q) =
    ((distOf k b).elim 1 fun r => r p.redshift) * ((distOf k b).elim 1 fun r => r q.redshift) * (dir p).dot (dir q) := by
  unfold posOf SurvPairs.cartesian
  cases distOf k b with
  | none => simp [dir]
  | some r =>
    simp only [Option.elim_some, dir, Sky.Vec.dot, Sky.smul_x, Sky.smul_y, Sky.smul_z]
    ring

/-- C141: the results depend on the angles between the objects only: they are the same for every change of the catalogs that keeps redshifts, weights
and the angle of each two objects, on any ranks. -/
theorem tpcf_angles {φ : Obj → Obj} {P P' : Nat} {C C' : Nat → Cat} (h : Same φ P P' C C') (hz : ∀ o, (φ o).redshift = o.redshift)
    (hdot : ∀ p q, (dir (φ p)).dot (dir (φ q)) = (dir p).dot (dir q)) (E : PcfObj.Env) (rat : ℝ → ℚ)
    {mach mach' : Nat → Option Nat → Mach} {k : Kw} (hm : ∀ i j, (mach i j).Good P k.factor) (hm' : ∀ i j, (mach' i j).Good P' k.factor)
    {g : PcfObj.Args} (hs : PcfObj.counterOf g = .survey) (hb : Half g.bins) :
    tpcf E rat mach' k C' g = tpcf E rat mach k C g := by
  have hp : ∀ p q, (posOf k g.bins (φ p)).dot (posOf k g.bins (φ q)) = (posOf k g.bins p).dot (posOf k g.bins q) := fun p q => by
    rw [pos_dot, pos_dot, hdot, hz, hz]
  refine tpcf_same h E rat hm hm' hs hb (fun _ => Iff.rfl) ?_ ?_
  · intro i j p _ q _
    exact (bin_dot (hp p p) (hp p q) (hp q q) g.bins).1
  · intro i j p _ q _
    exact congrArg rat (bin_dot (hp p p) (hp p q) (hp q q) g.bins).2

/-- An object at the place to which `R` takes its direction. -/
def rotated (R : Vec → Vec) (o : Obj) : Obj :=
  { o with ra := (Sky.cartesianToEquatorial (R (dir o)) ⟨0, 0, 0⟩).ra, dec := (Sky.cartesianToEquatorial (R (dir o)) ⟨0, 0, 0⟩).dec }

theorem dir_rotated (R : Vec → Vec) (hR : ∀ u v, (R u).dot (R v) = u.dot v) (o : Obj) : dir (rotated R o) = R (dir o) := by
  have h := Sky.position_inverse (R (dir o)) ⟨0, 0, 0⟩
  rw [Sky.sub_zero_pos] at h
  have hn : (R (dir o)).norm = 1 := by
    rw [norm_dot, hR, ← norm_dot]
    exact Sky.unit_norm _ _ _
  rw [hn] at h
  refine Eq.trans ?_ h
  simp only [dir, rotated]
  apply Sky.Vec.ext <;> simp [Sky.add_x, Sky.add_y, Sky.add_z, Sky.smul_x, Sky.smul_y, Sky.smul_z]

/-- C141: the results do not change if the sky is rotated or mirrored: if every object is moved to the place to which an isometry takes it. -/
theorem tpcf_rotated {R : Vec → Vec} (hR : ∀ u v, (R u).dot (R v) = u.dot v) {P P' : Nat} {C C' : Nat → Cat} (hP : ∀ i, (C i).length = P)
    (hP' : ∀ i, (C' i).length = P') (hall : ∀ i, (C' i).flatten.Perm ((C i).flatten.map (rotated R))) (E : PcfObj.Env) (rat : ℝ → ℚ)
    {mach mach' : Nat → Option Nat → Mach} {k : Kw} (hm : ∀ i j, (mach i j).Good P k.factor) (hm' : ∀ i j, (mach' i j).Good P' k.factor)
    {g : PcfObj.Args} (hs : PcfObj.counterOf g = .survey) (hb : Half g.bins) :
    tpcf E rat mach' k C' g = tpcf E rat mach k C g :=
  tpcf_angles (φ := rotated R) ⟨hP, hP', hall, fun _ => rfl⟩ (fun _ => rfl) (fun p q => by rw [dir_rotated R hR, dir_rotated R hR, hR]) E rat hm hm' hs hb

/-- An object with its right ascension turned by `δ` degrees, or mirrored. -/
def turned (δ : ℝ) (o : Obj) : Obj := { o with ra := o.ra + δ }
def mirrored (o : Obj) : Obj := { o with dec := -o.dec }
def reversed (o : Obj) : Obj := { o with ra := -o.ra }

theorem turned_dot (δ : ℝ) (p q : Obj) : (dir (turned δ p)).dot (dir (turned δ q)) = (dir p).dot (dir q) := by
  have h : ∀ x, Sky.deg2rad (x + δ) = Sky.deg2rad x + Sky.deg2rad δ := fun x => by unfold Sky.deg2rad; ring
  simp only [dir, turned, Sky.skyToUnitSphere, if_true, Sky.Vec.dot, h, Real.cos_add, Real.sin_add]
  have := Real.sin_sq_add_cos_sq (Sky.deg2rad δ)
  linear_combination (Real.cos (Sky.deg2rad p.dec) * Real.cos (Sky.deg2rad q.dec) * (Real.cos (Sky.deg2rad p.ra) * Real.cos (Sky.deg2rad q.ra) +
    Real.sin (Sky.deg2rad p.ra) * Real.sin (Sky.deg2rad q.ra))) * this

theorem deg_neg (x : ℝ) : Sky.deg2rad (-x) = -Sky.deg2rad x := by unfold Sky.deg2rad; ring

/-- C141: in particular another zero of the right ascension, right ascensions of the other sense and exchanged hemispheres change nothing. -/
theorem tpcf_turned (φ : Obj → Obj) (hφ : (∃ δ, φ = turned δ) ∨ φ = mirrored ∨ φ = reversed) {P P' : Nat} {C C' : Nat → Cat} (hP : ∀ i, (C i).length = P)
    (hP' : ∀ i, (C' i).length = P') (hall : ∀ i, (C' i).flatten.Perm ((C i).flatten.map φ)) (E : PcfObj.Env) (rat : ℝ → ℚ)
    {mach mach' : Nat → Option Nat → Mach} {k : Kw} (hm : ∀ i j, (mach i j).Good P k.factor) (hm' : ∀ i j, (mach' i j).Good P' k.factor)
    {g : PcfObj.Args} (hs : PcfObj.counterOf g = .survey) (hb : Half g.bins) :
    tpcf E rat mach' k C' g = tpcf E rat mach k C g := by
  have h1 : ∀ o, (φ o).weight = o.weight := by rcases hφ with ⟨δ, rfl⟩ | rfl | rfl <;> intro o <;> rfl
  have h2 : ∀ o, (φ o).redshift = o.redshift := by rcases hφ with ⟨δ, rfl⟩ | rfl | rfl <;> intro o <;> rfl
  refine tpcf_angles ⟨hP, hP', hall, h1⟩ h2 ?_ E rat hm hm' hs hb
  intro p q
  rcases hφ with ⟨δ, rfl⟩ | rfl | rfl
  · exact turned_dot δ p q
  · simp only [dir, mirrored, Sky.skyToUnitSphere, if_true, Sky.Vec.dot, deg_neg, Real.cos_neg, Real.sin_neg]
    ring
  · simp only [dir, reversed, Sky.skyToUnitSphere, if_true, Sky.Vec.dot, deg_neg, Real.cos_neg, Real.sin_neg]
    ring

/-- An object at another redshift. -/
def atRedshift (z : Obj → ℝ) (o : Obj) : Obj := { o with redshift := z o }

/-- C141: the angular correlation function depends neither on redshifts nor on a cosmology, and needs none. -/
theorem angular_redshifts (z : Obj → ℝ) {P P' : Nat} {C C' : Nat → Cat} (hP : ∀ i, (C i).length = P) (hP' : ∀ i, (C' i).length = P')
    (hall : ∀ i, (C' i).flatten.Perm ((C i).flatten.map (atRedshift z))) (E : PcfObj.Env) (rat : ℝ → ℚ) {mach mach' : Nat → Option Nat → Mach} {k k' : Kw}
    (hm : ∀ i j, (mach i j).Good P k.factor) (hm' : ∀ i j, (mach' i j).Good P' k'.factor) {g : PcfObj.Args} (hs : PcfObj.counterOf g = .survey)
    (ha : g.bins.mode = "angular") (hb : Pairs.maxEdge g.bins.edges ≤ 180) :
    tpcf E rat mach' k' C' g = tpcf E rat mach k C g := by
  have hd : ∀ k : Kw, distOf k g.bins = none := fun k => by simp [distOf, modeOf, ha, SurvPairs.Mode.isAngular]
  have hp : ∀ o, posOf k' g.bins (atRedshift z o) = posOf k g.bins o := fun o => by
    simp only [posOf, hd, SurvPairs.cartesian]
    rfl
  refine tpcf_same (φ := atRedshift z) ⟨hP, hP', hall, fun _ => rfl⟩ E rat hm hm' hs (fun _ => hb) (fun h => absurd ha h) ?_ ?_
  · intro i j p _ q _
    simp only [bin, hp]
  · intro i j p _ q _
    simp only [sep, hp]

/-- C141: of a cosmology only the distances of the objects matter. -/
theorem same_distances {P P' : Nat} {C C' : Nat → Cat} (hP : ∀ i, (C i).length = P) (hP' : ∀ i, (C' i).length = P')
    (hall : ∀ i, (C' i).flatten.Perm (C i).flatten) (E : PcfObj.Env) (rat : ℝ → ℚ) {mach mach' : Nat → Option Nat → Mach} {k k' : Kw} (r r' : ℝ → ℝ)
    (hk : k.cosmo = some r) (hk' : k'.cosmo = some r') (hr : ∀ i, ∀ o ∈ (C i).flatten, r' o.redshift = r o.redshift)
    (hm : ∀ i j, (mach i j).Good P k.factor) (hm' : ∀ i j, (mach' i j).Good P' k'.factor) {g : PcfObj.Args} (hs : PcfObj.counterOf g = .survey)
    (hb : Half g.bins) : tpcf E rat mach' k' C' g = tpcf E rat mach k C g := by
  have hp : ∀ i, ∀ o ∈ all (C i), posOf k' g.bins o = posOf k g.bins o := by
    intro i o ho
    unfold posOf distOf
    split
    · rfl
    · rw [hk, hk']
      simp only [SurvPairs.cartesian, hr i o ho]
  refine tpcf_same (φ := id) ⟨hP, hP', fun i => by rw [List.map_id]; exact hall i, fun _ => rfl⟩ E rat hm hm' hs hb (fun _ => by rw [hk, hk']; simp) ?_ ?_
  · intro i j p hp1 q hq
    simp only [bin, id, hp i p hp1, hp j q hq]
  · intro i j p hp1 q hq
    simp only [sep, id, hp i p hp1, hp j q hq]

/-- C141: without randoms, without the cosmology that distances need, or with no bins of `mu`, there is a `ValueError`. -/
theorem refused {P : Nat} {C : Nat → Cat} (hP : ∀ i, (C i).length = P) (E : PcfObj.Env) (rat : ℝ → ℚ) {mach : Nat → Option Nat → Mach} {k : Kw}
    (hm : ∀ i j, (mach i j).Good P k.factor) {g : PcfObj.Args} (hs : PcfObj.counterOf g = .survey) (hb : Half g.bins)
    (h : g.randoms1 = none ∨ (g.bins.mode ≠ "angular" ∧ k.cosmo = none) ∨ (g.bins.mode = "2d" ∧ g.bins.Nmu = some 0)) :
    tpcf E rat mach k C g = .error .valueError := by
  have hp : PcfObj.periodicOf g = none := by
    unfold PcfObj.counterOf at hs
    cases hp : PcfObj.periodicOf g with
    | none => rfl
    | some v => rw [hp] at hs; simp at hs
  cases hr : g.randoms1 with
  | none => exact PcfObj.no_randoms _ g hr (by rw [hp]; simp)
  | some r1 =>
    have h' : (g.bins.mode ≠ "angular" ∧ k.cosmo = none) ∨ (g.bins.mode = "2d" ∧ g.bins.Nmu = some 0) := by
      rcases h with h | h
      · rw [hr] at h; cases h
      · exact h
    have hc : ∀ i j, PcfObj.counted (envOf E rat mach k C) .survey g.bins i j = .error .valueError := by
      intro i j
      unfold PcfObj.counted
      cases hck : Pairs.checkArgs g.bins.mode g.bins.edges g.bins.Nmu g.bins.pimax with
      | error _ => rfl
      | ok md =>
        simp only [envOf, if_true]
        rw [count_eq rat (mach i j) P k (hm i j) g.bins hck hb (C i) (j.map C) _ (hP i)]
        rcases h' with h' | h'
        · rw [if_pos h']; rfl
        · rw [if_pos h']
          split <;> rfl
    unfold tpcf PcfObj.new PcfObj.runBase
    rw [if_neg (by simp [PcfObj.isAnalytic, hp]), hr]
    simp only
    unfold PcfObj.runLS PcfObj.randomPairs
    cases g.R1R2 with
    | some o => simp [hs, hc, Except.bind]
    | none => simp [hs, hc, Except.bind]

end NBK.SurvTpcf
