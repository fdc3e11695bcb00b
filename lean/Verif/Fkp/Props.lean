import Verif.Fkp.Lemmas

/-!
# Properties of FKP catalogs, their meshes and the sums of `ConvolvedFFTPower` (C68-C72)
-/
set_option linter.unusedSimpArgs false

namespace NBK.Fkp

/-! ## C68: the FKP weights -/

/-- C68: the weight is `1 / (1 + P0 nbar)`, in `(0, 1]`, for `P0 = 0` too. -/
theorem weight_spec (P0 nbar : ℚ) (h0 : 0 ≤ P0) (h1 : 0 ≤ nbar) :
    fkpWeight P0 nbar * (1 + P0 * nbar) = 1 ∧ 0 < fkpWeight P0 nbar ∧ fkpWeight P0 nbar ≤ 1 := by
  have hp : 0 < 1 + P0 * nbar := by have := mul_nonneg h0 h1; linarith
  unfold fkpWeight
  by_cases h : P0 = 0
  · subst h; simp
  · rw [if_pos h]
    refine ⟨by field_simp, by positivity, ?_⟩
    rw [div_le_one hp]
    have := mul_nonneg h0 h1; linarith

/-- C68: a denser region never has a larger weight. -/
theorem weight_anti (P0 n1 n2 : ℚ) (h0 : 0 ≤ P0) (h1 : 0 ≤ n1) (h : n1 ≤ n2) : fkpWeight P0 n2 ≤ fkpWeight P0 n1 := by
  unfold fkpWeight
  split
  · have hp : 0 < 1 + P0 * n1 := by have := mul_nonneg h0 h1; linarith
    have := mul_le_mul_of_nonneg_left h h0
    exact one_div_le_one_div_of_le hp (by linarith)
  · exact le_refl _

/-- C68: `FKPCatalog` exists exactly if both catalogs have the column of nbar. -/
theorem init_ok_iff (data : Cat) (ran : Cat) (bs : Option (Axis → ℚ)) (pad : Axis → ℚ) (P0 : Option ℚ) :
    ((∃ f, init data (some ran) bs pad P0 = .ok f) ↔ data.hasNbar = true ∧ ran.hasNbar = true) ∧
    ((∃ f, init data none bs pad P0 = .ok f) ↔ data.hasNbar = true) := by
  unfold init
  cases h1 : data.hasNbar <;> cases h2 : ran.hasNbar <;> simp [h1, h2, Cat.empty]

/-- The argument with a name. -/
def pick (data ran : Cat) : Species → Cat
  | .data => data
  | .randoms => ran

/-- C68: after the constructor every row of both species has the FKP weight `1 / (1 + P0 nbar)` if `P0` is given; else
the column of the argument is kept, with the default 1 if there is none. Nothing else changes. -/
theorem init_rows (data ran : Cat) (bs : Option (Axis → ℚ)) (pad : Axis → ℚ) (P0 : Option ℚ) (f : Fkp)
    (h : init data (some ran) bs pad P0 = .ok f) (s : Species) (i j : Nat) (r : Row)
    (hr : (pick data ran s).rows[i]?.bind (·[j]?) = some r) :
    ∃ r', ((f.get s).rows[i]?.bind (·[j]?)) = some r' ∧ r'.pos = r.pos ∧ r'.sel = r.sel ∧ r'.comp = r.comp ∧
      r'.nbar = r.nbar ∧ r'.val = r.val ∧
      (∀ p, P0 = some p → r'.fkp = fkpWeight p r.nbar) ∧
      (P0 = none → (pick data ran s).hasFkp = true → r'.fkp = r.fkp) ∧
      (P0 = none → (pick data ran s).hasFkp = false → r'.fkp = 1) := by
  have hf : ∃ c, c = (pick data ran s) ∧ f.get s = setFkp P0 c := by
    unfold init at h
    simp only [Option.getD_some] at h
    split at h
    · cases h
      cases s <;> exact ⟨_, rfl, rfl⟩
    · cases h
  obtain ⟨c, hc, hf⟩ := hf
  rw [hf]
  rw [← hc] at hr ⊢
  cases hi : c.rows[i]? with
  | none => rw [hi] at hr; simp at hr
  | some rs =>
    rw [hi] at hr
    simp only [Option.bind_some] at hr
    cases P0 with
    | some p =>
      refine ⟨{ r with fkp := fkpWeight p r.nbar }, ?_, rfl, rfl, rfl, rfl, rfl, ?_, ?_, ?_⟩
      · simp [setFkp, hi, hr]
      · intro p' hp; cases hp; rfl
      · intro hp; cases hp
      · intro hp; cases hp
    | none =>
      cases hk : c.hasFkp with
      | true =>
        refine ⟨r, by simp [setFkp, hk, hi, hr], rfl, rfl, rfl, rfl, rfl, ?_, fun _ _ => rfl, ?_⟩
        · intro p' hp; cases hp
        · intro _ hp; cases hp
      | false =>
        refine ⟨{ r with fkp := 1 }, by simp [setFkp, hk, hi, hr], rfl, rfl, rfl, rfl, rfl, ?_, ?_, fun _ _ => rfl⟩
        · intro p' hp; cases hp
        · intro _ hp; cases hp

/-- C68: without randoms the species `randoms` exists and is empty on every rank. -/
theorem init_none (data : Cat) (bs : Option (Axis → ℚ)) (pad : Axis → ℚ) (P0 : Option ℚ) (f : Fkp)
    (h : init data none bs pad P0 = .ok f) :
    f.randoms.csize = 0 ∧ f.randoms.rows.length = data.rows.length ∧ f.data.csize = data.csize := by
  unfold init at h
  simp only [Option.getD_none] at h
  split at h
  · cases h
    cases P0 with
    | some p => simp [setFkp, Cat.empty, Cat.csize, Function.comp_def]
    | none =>
      cases hk : data.hasFkp <;> simp [setFkp, Cat.empty, Cat.csize, Function.comp_def, hk]
  · cases h

/-- A row for the examples. -/
def row (x y z comp fkp nbar : ℚ) : Row := ⟨![x, y, z], true, comp, fkp, nbar, 1⟩

/-- Non-vacuity: two ranks, weights from nbar. -/
example : (match init ⟨[[row 0 0 0 1 7 (1/2)], [row 1 1 1 1 7 3]], true, true⟩ none none (fun _ => 0) (some 2) with
    | .ok f => f.data.rows.map (·.map Row.fkp)
    | .error _ => []) = [[1/2], [1/7]] := by decide +kernel

/-! ## C69: the box -/

/-- C69: without an explicit box, every selected object of the species that defines the box has its recentred
coordinates in `[-L/2, L/2]`, the box sides are integers, the center is the middle of the extreme coordinates and the
side is the padded extent rounded up. -/
theorem box_contains_partial (c : Nat) (hc : 0 < c) (f : Fkp) (nm : Axis → Nat) (s : Option Species) (m : Mesh)
    (hs : f.boxSize = none) (hp : ∀ a, 0 ≤ f.boxPad a) (h : toMesh c f nm none none s = .ok m) (a : Axis) :
    (∀ r ∈ (f.get (boxSpecies f s)).all, -(m.boxSize a) / 2 ≤ m.recentered r a ∧ m.recentered r a ≤ m.boxSize a / 2) ∧
    (∃ k : ℤ, m.boxSize a = k) ∧
    (∃ lo ∈ (f.get (boxSpecies f s)).all, ∃ hi ∈ (f.get (boxSpecies f s)).all,
      m.recentered lo a = -(m.recentered hi a) ∧
      (hi.pos a - lo.pos a) * (1 + f.boxPad a) ≤ m.boxSize a ∧
      m.boxSize a < (hi.pos a - lo.pos a) * (1 + f.boxPad a) + 1) := by
  obtain ⟨L, C, hb, rfl⟩ := toMesh_ok h
  obtain ⟨lo, hi, hlo, hhi, hall, hC, hL⟩ := defineBbox_ok hc hb a
  rw [hs] at hL
  simp only [Option.map_none, Option.getD_none] at hL ⊢
  have h1 : (hi.pos a - lo.pos a) * (1 + f.boxPad a) ≤ L a := by rw [hL]; exact Int.le_ceil _
  have h2 : L a < (hi.pos a - lo.pos a) * (1 + f.boxPad a) + 1 := by rw [hL]; exact Int.ceil_lt_add_one _
  have h3 : 0 ≤ hi.pos a - lo.pos a := by linarith [(hall lo hlo).2]
  have h4 : hi.pos a - lo.pos a ≤ L a := by
    have := mul_nonneg h3 (hp a); linarith
  refine ⟨?_, ⟨_, hL⟩, lo, hlo, hi, hhi, ?_, h1, h2⟩
  · intro r hr
    obtain ⟨h5, h6⟩ := hall r hr
    simp only [Mesh.recentered, hC]
    constructor <;> linarith
  · simp only [Mesh.recentered, hC]; ring

/-- C69: the box does not depend on how the objects are spread over the ranks, on their order or on the chunk size. -/
theorem box_indep (c c' : Nat) (hc : 0 < c) (hc' : 0 < c') (f f' : Fkp) (cat cat' : Cat)
    (hsz : f.boxSize = f'.boxSize) (hpad : f.boxPad = f'.boxPad) (hm : ∀ r, r ∈ cat.all ↔ r ∈ cat'.all)
    (b b' : (Axis → ℚ) × (Axis → ℚ)) (h : defineBbox c f cat = .ok b) (h' : defineBbox c' f' cat' = .ok b') : b = b' := by
  obtain ⟨L, C⟩ := b
  obtain ⟨L', C'⟩ := b'
  have key : ∀ a, L a = L' a ∧ C a = C' a := by
    intro a
    obtain ⟨lo, hi, hlo, hhi, hall, hC, hL⟩ := defineBbox_ok hc h a
    obtain ⟨lo', hi', hlo', hhi', hall', hC', hL'⟩ := defineBbox_ok hc' h' a
    have e1 : lo.pos a = lo'.pos a := le_antisymm (hall lo' ((hm _).mpr hlo')).1 (hall' lo ((hm _).mp hlo)).1
    have e2 : hi.pos a = hi'.pos a := le_antisymm (hall' hi ((hm _).mp hhi)).2 (hall hi' ((hm _).mpr hhi')).2
    rw [hL, hL', hC, hC', e1, e2, hsz, hpad]
    exact ⟨rfl, rfl⟩
  have e1 : L = L' := funext fun a => (key a).1
  have e2 : C = C' := funext fun a => (key a).2
  rw [e1, e2]

/-- C69: a species without a selected object gives no box. -/
theorem box_empty (c : Nat) (hc : 0 < c) (f : Fkp) (cat : Cat) (h : cat.all = []) :
    ∀ b, defineBbox c f cat ≠ .ok b := by
  rintro ⟨L, C⟩ hb
  obtain ⟨lo, -, hlo, -⟩ := defineBbox_ok hc hb 0
  rw [h] at hlo; cases hlo

/-- C69: a box given to the catalog or to `to_mesh` is used as it is. -/
theorem box_given (c : Nat) (hc : 0 < c) (f : Fkp) (nm : Axis → Nat) (bs bc : Option (Axis → ℚ)) (s : Option Species)
    (m : Mesh) (h : toMesh c f nm bs bc s = .ok m) :
    (∀ L, bs = some L → m.boxSize = L) ∧ (∀ C, bc = some C → m.boxCenter = C) ∧
    (bs = none → ∀ L, f.boxSize = some L → m.boxSize = L) := by
  obtain ⟨L, C, hb, rfl⟩ := toMesh_ok h
  refine ⟨?_, ?_, ?_⟩
  · rintro L' rfl; rfl
  · rintro L' rfl; rfl
  · rintro rfl L' hL'
    funext a
    obtain ⟨_, _, _, _, _, _, hL⟩ := defineBbox_ok hc hb a
    rw [hL'] at hL
    exact hL

/-- C69: the box is that of the randoms unless there are none, if no species is asked for. -/
theorem box_species (f : Fkp) : (0 < f.randoms.csize → boxSpecies f none = .randoms) ∧
    (f.randoms.csize = 0 → boxSpecies f none = .data) ∧ ∀ s, boxSpecies f (some s) = s := by
  refine ⟨fun h => by simp [boxSpecies, h], fun h => by simp [boxSpecies, h], fun s => rfl⟩

/-- The size and center of a mesh, for the examples. -/
def boxOf (m : Except Err Mesh) : Option (List ℚ × List ℚ) :=
  match m with
  | .ok m => some ([m.boxSize 0, m.boxSize 1, m.boxSize 2], [m.boxCenter 0, m.boxCenter 1, m.boxCenter 2])
  | .error _ => none

/-- Non-vacuity: randoms on two ranks. -/
example : boxOf (toMesh 100 ⟨⟨[[], []], true, true⟩,
    ⟨[[row 0 0 0 1 1 1, row 10 3 5 1 1 1], [row (-10) 5 5 1 1 1]], true, true⟩, none, fun _ => 1/50⟩ (fun _ => 4) none none none) =
    some ([21, 6, 6], [0, 5/2, 5/2]) := by decide +kernel

/-- C69 fails for the other species: the data may lie outside of the box of the randoms and be wrapped by the periodic
mesh; no error is raised. -/
theorem data_outside : ∃ (f : Fkp) (m : Mesh) (r : Row), toMesh 100 f (fun _ => 4) none none none = .ok m ∧
    r ∈ f.data.all ∧ m.boxSize 0 / 2 < m.recentered r 0 := by
  refine ⟨⟨⟨[[row 9 0 0 1 1 1]], true, true⟩, ⟨[[row 0 0 0 1 1 1, row 1 1 1 1 1 1]], true, true⟩, none, fun _ => 0⟩,
    ⟨_, _, _, _, _⟩, row 9 0 0 1 1 1, rfl, by simp [Cat.all, row], ?_⟩
  decide +kernel

/-- C69 fails: if every object has the same coordinate the side of the box is 0. -/
theorem box_zero : ∃ (f : Fkp) (m : Mesh), toMesh 100 f (fun _ => 4) none none none = .ok m ∧ f.boxSize = none ∧
    (∀ a, 0 < f.boxPad a) ∧ m.boxSize 2 = 0 := by
  refine ⟨⟨⟨[], true, true⟩, ⟨[[row 0 0 5 1 1 1, row 1 1 5 1 1 1]], true, true⟩, none, fun _ => 1/50⟩,
    ⟨_, _, _, _, _⟩, rfl, rfl, ?_, ?_⟩
  · intro a; norm_num
  · decide +kernel

/-- C69 fails: randoms of which none is selected are not skipped in favour of the data, as they are when there are none;
the call raises although the data have a box. -/
theorem box_unselected : ∃ f : Fkp, toMesh 100 f (fun _ => 4) none none none = .error .valueError ∧
    f.randoms.all = [] ∧ (∃ m, toMesh 100 f (fun _ => 4) none none (some .data) = .ok m) ∧
    (∃ m, toMesh 100 { f with randoms := f.randoms.empty } (fun _ => 4) none none none = .ok m) := by
  refine ⟨⟨⟨[[row 0 0 0 1 1 1, row 1 1 1 1 1 1]], true, true⟩,
    ⟨[[{ row 0 0 0 1 1 1 with sel := false }]], true, true⟩, none, fun _ => 0⟩, rfl, ?_, ⟨_, rfl⟩, ⟨_, rfl⟩⟩
  simp [Cat.all, row]

/-! ## C70: the FKP field -/

/-- The mass of the selected objects of a species. -/
def mass (c : Cat) : ℚ := (c.all.map fun r => r.comp * r.fkp * r.val).sum

/-- The sum of the completeness weights of the selected objects of a species. -/
def compSum (c : Cat) : ℚ := (c.all.map Row.comp).sum

/-- C70: `alpha` is the ratio of the completeness weights of the selected objects, and a finite number exactly if those
of the randoms do not sum to 0. -/
theorem alpha_spec (f : Fkp) :
    (compSum f.randoms = 0 → alpha f = none) ∧
    (compSum f.randoms ≠ 0 → ∃ a, alpha f = some a ∧ a * compSum f.randoms = compSum f.data) := by
  have e : ∀ c, weightedTotal c = compSum c := fun c => allSum_eq c _
  unfold alpha
  rw [e, e]
  constructor
  · intro h; rw [if_pos h]
  · intro h; rw [if_neg h]; exact ⟨_, rfl, by field_simp⟩

/-- The paint of a species adds up to its mass if the shares of every object add up to 1. -/
theorem paint_total {X : Type} (win : (Axis → ℚ) → (Axis → ℚ) → X → ℚ) (cells : List X)
    (hwin : ∀ b p, (cells.map (win b p)).sum = 1) (m : Mesh) (c : Cat) : (cells.map (paint win m c)).sum = mass c := by
  have h : ∀ l : List Row, (cells.map fun x =>
      (l.map fun r => r.comp * r.fkp * r.val * win m.boxSize (m.recentered r) x).sum).sum =
      (l.map fun r => r.comp * r.fkp * r.val).sum := by
    intro l
    induction l with
    | nil => simp
    | cons r l ih =>
      simp only [List.map_cons, List.sum_cons, List.sum_map_add, ih, List.sum_map_mul_left, hwin, mul_one]
  unfold mass
  rw [← h]
  congr 1
  apply List.map_congr_left
  intro x _
  exact allSum_eq c _

theorem csize_pos_of_all {c : Cat} (h : c.all ≠ []) : 0 < c.csize := by
  unfold Cat.csize
  rw [← List.length_flatten]
  apply List.length_pos_iff.mpr
  intro e
  apply h
  simp [Cat.all, e]

theorem all_ne_nil_of_compSum {c : Cat} (h : compSum c ≠ 0) : c.all ≠ [] := by
  intro e; apply h; simp [compSum, e]

/-- The field where `alpha` is finite. -/
theorem field_some {X : Type} (win : (Axis → ℚ) → (Axis → ℚ) → X → ℚ) (m : Mesh) (a : ℚ) (ha : alpha m.cat = some a) (x : X) :
    toRealField win m x = some ((paint win m m.cat.data x - a * paint win m m.cat.randoms x) / m.cellVolume) := by
  have hr : compSum m.cat.randoms ≠ 0 := by
    intro h; rw [(alpha_spec m.cat).1 h] at ha; cases ha
  have hc : m.cat.randoms.csize > 0 := csize_pos_of_all (all_ne_nil_of_compSum hr)
  unfold toRealField
  simp only [if_pos hc, ha, Option.bind_eq_bind, Option.bind_some, Option.pure_def, Option.map_some]
  congr 2; ring

/-- The sum of the field over the cells. -/
theorem field_sum {X : Type} (win : (Axis → ℚ) → (Axis → ℚ) → X → ℚ) (cells : List X)
    (hwin : ∀ b p, (cells.map (win b p)).sum = 1) (m : Mesh) (a : ℚ) (ha : alpha m.cat = some a) :
    (cells.map fun x => (toRealField win m x).getD 0).sum = (mass m.cat.data - a * mass m.cat.randoms) / m.cellVolume := by
  rw [← paint_total win cells hwin m, ← paint_total win cells hwin m]
  simp only [field_some win m a ha, Option.getD_some, div_eq_mul_inv, List.sum_map_mul_right]
  congr 1
  clear hwin
  induction cells with
  | nil => simp
  | cons x cells ih => simp only [List.map_cons, List.sum_cons] at *; rw [ih]; ring

/-- C70: the FKP field of a mesh whose `pm` has the box of the mesh, summed over the cells and multiplied by the volume
of a cell, is the weighted number of data minus `alpha` times that of the randoms. -/
theorem field_total {X : Type} (win : (Axis → ℚ) → (Axis → ℚ) → X → ℚ) (cells : List X)
    (hwin : ∀ b p, (cells.map (win b p)).sum = 1) (m : Mesh) (hpm : m.pmSize = m.boxSize)
    (hb : ∀ k, m.boxSize k ≠ 0) (hn : ∀ k, m.nmesh k ≠ 0) (a : ℚ) (ha : alpha m.cat = some a) :
    (∀ x, ∃ v, toRealField win m x = some v) ∧
    (cells.map fun x => (toRealField win m x).getD 0).sum *
      (m.boxSize 0 * m.boxSize 1 * m.boxSize 2 / (m.nmesh 0 * m.nmesh 1 * m.nmesh 2)) =
      mass m.cat.data - a * mass m.cat.randoms := by
  refine ⟨fun x => ⟨_, field_some win m a ha x⟩, ?_⟩
  have e := field_sum win cells hwin m a ha
  rw [e]
  have h0 := hb 0; have h1 := hb 1; have h2 := hb 2
  have n0 : (m.nmesh 0 : ℚ) ≠ 0 := Nat.cast_ne_zero.mpr (hn 0)
  have n1 : (m.nmesh 1 : ℚ) ≠ 0 := Nat.cast_ne_zero.mpr (hn 1)
  have n2 : (m.nmesh 2 : ℚ) ≠ 0 := Nat.cast_ne_zero.mpr (hn 2)
  unfold Mesh.cellVolume
  rw [hpm]
  field_simp

/-- C70: if all selected objects have the same FKP weight (and value), the FKP field sums to zero. -/
theorem field_mean_zero {X : Type} (win : (Axis → ℚ) → (Axis → ℚ) → X → ℚ) (cells : List X)
    (hwin : ∀ b p, (cells.map (win b p)).sum = 1) (m : Mesh) (a w : ℚ) (ha : alpha m.cat = some a)
    (hd : ∀ r ∈ m.cat.data.all, r.fkp * r.val = w) (hr : ∀ r ∈ m.cat.randoms.all, r.fkp * r.val = w) :
    (cells.map fun x => (toRealField win m x).getD 0).sum = 0 := by
  have hm : ∀ c : Cat, (∀ r ∈ c.all, r.fkp * r.val = w) → mass c = compSum c * w := by
    intro c h
    unfold mass compSum
    rw [← List.sum_map_mul_right]
    congr 1
    apply List.map_congr_left
    intro r hr
    rw [mul_assoc, h r hr]
  have hr0 : compSum m.cat.randoms ≠ 0 := by
    intro h; rw [(alpha_spec m.cat).1 h] at ha; cases ha
  obtain ⟨a', ha', he⟩ := (alpha_spec m.cat).2 hr0
  rw [ha] at ha'; cases ha'
  have e := field_sum win cells hwin m a ha
  rw [e, hm _ hd, hm _ hr, ← mul_assoc, he]
  simp

/-- C70: the field does not depend on the ranks and the order of the objects. -/
theorem field_indep {X : Type} (win : (Axis → ℚ) → (Axis → ℚ) → X → ℚ) (m m' : Mesh) (hb : m.boxSize = m'.boxSize)
    (hc : m.boxCenter = m'.boxCenter) (hp : m.pmSize = m'.pmSize) (hn : m.nmesh = m'.nmesh)
    (hd : m.cat.data.all.Perm m'.cat.data.all) (hr : m.cat.randoms.all.Perm m'.cat.randoms.all)
    (hz : m.cat.randoms.csize = m'.cat.randoms.csize) :
    toRealField win m = toRealField win m' := by
  funext x
  have hrec : m.recentered = m'.recentered := by funext r a; simp [Mesh.recentered, hc]
  have h1 : paint win m m.cat.data x = paint win m' m'.cat.data x := by
    unfold paint; rw [hb, hrec]; exact allSum_perm hd _
  have h2 : paint win m m.cat.randoms x = paint win m' m'.cat.randoms x := by
    unfold paint; rw [hb, hrec]; exact allSum_perm hr _
  have h3 : alpha m.cat = alpha m'.cat := by
    unfold alpha weightedTotal
    rw [allSum_perm hd, allSum_perm hr]
  have h4 : m.cellVolume = m'.cellVolume := by unfold Mesh.cellVolume; rw [hp, hn]
  unfold toRealField
  rw [h1, h2, h3, h4, hz]

/-- Sums over the randoms are `t` times those of other randoms. -/
theorem field_scaled {X : Type} (win : (Axis → ℚ) → (Axis → ℚ) → X → ℚ) (m : Mesh) (c : Cat) (t : ℚ) (ht : t ≠ 0)
    (h : ∀ g : (Axis → ℚ) → ℚ → ℚ → ℚ, allSum c (fun r => r.comp * g r.pos r.fkp r.val) =
      t * allSum m.cat.randoms (fun r => r.comp * g r.pos r.fkp r.val))
    (hr : compSum m.cat.randoms ≠ 0) :
    toRealField win { m with cat := { m.cat with randoms := c } } = toRealField win m := by
  obtain ⟨a, ha, he⟩ := (alpha_spec m.cat).2 hr
  have hw : ∀ d : Cat, weightedTotal d = allSum d (fun r => r.comp * 1) := by
    intro d; unfold weightedTotal; simp
  have hc : weightedTotal c = t * weightedTotal m.cat.randoms := by rw [hw, hw, h fun _ _ _ => 1]
  have hr' : weightedTotal m.cat.randoms ≠ 0 := by
    have : weightedTotal m.cat.randoms = compSum m.cat.randoms := allSum_eq _ _
    rw [this]; exact hr
  have ha' : alpha { m.cat with randoms := c } = some (a / t) := by
    unfold alpha at ha ⊢
    simp only [hc, mul_eq_zero, ht, hr', or_self, if_false] at ha ⊢
    cases ha
    congr 1; field_simp
  funext x
  rw [field_some win m a ha, field_some win _ (a / t) ha']
  have hp : paint win { m with cat := { m.cat with randoms := c } } c x = t * paint win m m.cat.randoms x := by
    have := h fun p w v => w * v * win m.boxSize (fun k => p k - m.boxCenter k) x
    simp only [← mul_assoc] at this
    exact this
  have hd : paint win { m with cat := { m.cat with randoms := c } } m.cat.data x = paint win m m.cat.data x := rfl
  simp only [hp, hd]
  congr 2
  field_simp

/-- C70: multiplying the completeness weights of all randoms by a constant does not change the field. -/
theorem field_scale {X : Type} (win : (Axis → ℚ) → (Axis → ℚ) → X → ℚ) (m : Mesh) (t : ℚ) (ht : t ≠ 0)
    (hr : compSum m.cat.randoms ≠ 0) :
    toRealField win { m with cat := { m.cat with randoms :=
      { m.cat.randoms with rows := m.cat.randoms.rows.map (·.map fun r => { r with comp := t * r.comp }) } } } =
    toRealField win m := by
  apply field_scaled win m _ t ht _ hr
  intro g
  rw [allSum_eq, allSum_eq, ← List.sum_map_mul_left]
  unfold Cat.all
  simp only
  induction m.cat.randoms.rows with
  | nil => rfl
  | cons l ls ih =>
    simp only [List.map_cons, List.flatten_cons, List.filter_append, List.map_append, List.sum_append, ih]
    congr 1
    induction l with
    | nil => rfl
    | cons r l ih' =>
      simp only [List.map_cons, List.filter_cons]
      split
      · simp only [List.map_cons, List.sum_cons, ih']; ring
      · exact ih'

/-- C70: `k` copies of the randoms give the field of one. -/
theorem field_replicate {X : Type} (win : (Axis → ℚ) → (Axis → ℚ) → X → ℚ) (m : Mesh) (c : Cat) (k : Nat) (hk : 0 < k)
    (hc : c.all.Perm (List.replicate k m.cat.randoms.all).flatten) (hr : compSum m.cat.randoms ≠ 0) :
    toRealField win { m with cat := { m.cat with randoms := c } } = toRealField win m := by
  apply field_scaled win m c k (Nat.cast_ne_zero.mpr (by omega)) _ hr
  intro g
  rw [allSum_eq, allSum_eq, (hc.map _).sum_eq]
  clear hc hk
  induction k with
  | zero => simp
  | succ k ih =>
    simp only [List.replicate_succ, List.flatten_cons, List.map_append, List.sum_append, ih]
    push_cast; ring

/-- C70: without randoms the field is the density of the data. -/
theorem field_no_randoms {X : Type} (win : (Axis → ℚ) → (Axis → ℚ) → X → ℚ) (m : Mesh) (h : m.cat.randoms.csize = 0) (x : X) :
    toRealField win m x = some ((m.cat.data.all.map fun r =>
      r.comp * r.fkp * r.val * win m.boxSize (m.recentered r) x).sum / m.cellVolume) := by
  unfold toRealField paint
  rw [allSum_eq]
  simp [h]

/-- C70 fails if there are randoms but none of them is selected (or their weights sum to 0): every cell of the field is
`NaN`, although without any random the field is that of the data. -/
theorem field_unselected {X : Type} (win : (Axis → ℚ) → (Axis → ℚ) → X → ℚ) (m : Mesh) (h : 0 < m.cat.randoms.csize)
    (hr : compSum m.cat.randoms = 0) (x : X) : toRealField win m x = none := by
  have ha := (alpha_spec m.cat).1 hr
  unfold toRealField
  simp [h, ha]

/-- The nearest of two cells along the first axis, for the examples. -/
def twoCells (_ : Axis → ℚ) (p : Axis → ℚ) (x : Bool) : ℚ := if (decide (p 0 < 0)) = x then 1 else 0

/-- The mesh of the examples. -/
def exMesh : Mesh :=
  { cat := ⟨⟨[[row (-1) 0 0 2 1 1], [row 1 0 0 1 1 1]], true, true⟩, ⟨[[row (-1) 0 0 1 1 1, row 1 0 0 1 1 1]], true, true⟩,
      none, fun _ => 0⟩
    boxSize := fun _ => 4, boxCenter := fun _ => 0, pmSize := fun _ => 4, nmesh := ![2, 1, 1] }

/-- Non-vacuity: the shares of `twoCells` add up to 1, `alpha` is 3/2 and the field is not zero although its sum is. -/
example : (∀ b p, ([false, true].map (twoCells b p)).sum = 1) ∧ alpha exMesh.cat = some (3/2) ∧
    compSum exMesh.cat.randoms ≠ 0 ∧
    [false, true].map (toRealField twoCells exMesh) = [some (-1/64), some (1/64)] := by
  refine ⟨?_, by decide +kernel, by decide +kernel, by decide +kernel⟩
  intro b p
  simp only [twoCells, List.map_cons, List.map_nil, List.sum_cons, List.sum_nil]
  by_cases h : p 0 < 0 <;> simp [h]

/-- Non-vacuity of `field_replicate`: two copies of the randoms on other ranks. -/
example : (Cat.all ⟨[[row (-1) 0 0 1 1 1, row 1 0 0 1 1 1], [row (-1) 0 0 1 1 1, row 1 0 0 1 1 1]], true, true⟩).Perm
    (List.replicate 2 exMesh.cat.randoms.all).flatten := List.Perm.refl _

/-! ## C71: normalization and shot noise -/

/-- The documented sum `A` (fkp.py 668): completeness weight, nbar and both FKP weights. -/
def docNorm (l : List Row) (second : Row → ℚ) : ℚ := (l.map fun r => r.comp * r.nbar * r.fkp * second r).sum

/-- The documented sum `S` (fkp.py 720): the squares of the completeness weights with both FKP weights. -/
def docShot (l : List Row) (second : Row → ℚ) : ℚ := (l.map fun r => (r.comp * r.fkp) * (r.comp * second r)).sum

theorem docNorm_eq (c : Cat) (second : Row → ℚ) (a : ℚ) :
    allSum c (fun r => r.nbar * r.comp * r.fkp * second r * a) = a * docNorm c.all second := by
  rw [allSum_eq, docNorm, ← List.sum_map_mul_left]
  congr 1; apply List.map_congr_left; intro r _; ring

theorem docNorm_eq' (c : Cat) (second : Row → ℚ) :
    allSum c (fun r => r.nbar * r.comp * r.fkp * second r) = docNorm c.all second := by
  rw [allSum_eq, docNorm]
  congr 1; apply List.map_congr_left; intro r _; ring

theorem docShot_eq (c : Cat) (second : Row → ℚ) :
    allSum c (fun r => r.comp ^ 2 * r.fkp * second r) = docShot c.all second := by
  rw [allSum_eq, docShot]
  congr 1; apply List.map_congr_left; intro r _; ring

/-- The attributes in terms of the documented sums, `alpha` finite. -/
theorem setAttrs_eq (f : Fkp) (second : Row → ℚ) (a : ℚ) (ha : alpha f = some a) :
    setAttrs f second noAttrs =
      (normFactor (some (docNorm f.data.all second)) (some (a * docNorm f.randoms.all second))).map fun n =>
        (n, ⟨some (some (docNorm f.data.all second)), some (some (a * docNorm f.randoms.all second)),
          some (div (some (docShot f.data.all second + docShot f.randoms.all second * a ^ 2))
            (some (a * docNorm f.randoms.all second)))⟩) := by
  have hne : f.randoms.all ≠ [] := by
    apply all_ne_nil_of_compSum
    intro h; rw [(alpha_spec f).1 h] at ha; cases ha
  have hne' : f.randoms.selected.flatten.isEmpty = false := by
    rw [selected_flatten]; cases h : f.randoms.all with
    | nil => exact absurd h hne
    | cons _ _ => rfl
  unfold setAttrs normalization normSum noAttrs shotnoise
  simp only [ha, hne', docNorm_eq, docNorm_eq', docShot_eq, Option.map_some, bind, Except.bind, pure, Except.pure,
    Option.getD_some, Bool.false_eq_true, if_false]
  cases normFactor (some (docNorm f.data.all second)) (some (a * docNorm f.randoms.all second)) <;> rfl

/-- C71: a calculation with randoms that passes sets `data.norm` to `A` of the data, `randoms.norm` to `alpha` times
`A` of the randoms, the factor of the spectra to its inverse, the total shot noise to
`(S of data + alpha^2 S of randoms) / randoms.norm`, and the two norms differ by at most 5% (plus `1e-8`). -/
theorem attrs_ok (f : Fkp) (second : Row → ℚ) (a n : ℚ) (at' : Attrs) (ha : alpha f = some a)
    (h : setAttrs f second noAttrs = .ok (n, at')) (hpos : 0 < a * docNorm f.randoms.all second) :
    ∃ A, A = a * docNorm f.randoms.all second ∧ at'.randomsNorm = some (some A) ∧
      at'.dataNorm = some (some (docNorm f.data.all second)) ∧ n * A = 1 ∧
      (∃ S, at'.shotnoise = some (some S) ∧ S * A = docShot f.data.all second + a ^ 2 * docShot f.randoms.all second) ∧
      |docNorm f.data.all second - A| ≤ 1 / 10 ^ 8 + 5 / 100 * A := by
  rw [setAttrs_eq f second a ha] at h
  refine ⟨_, rfl, ?_⟩
  generalize a * docNorm f.randoms.all second = A at *
  unfold normFactor at h
  simp only [hpos, gt_iff_lt, if_true] at h
  by_cases hc : |docNorm f.data.all second - A| ≤ 1 / 10 ^ 8 + 5 / 100 * |A|
  · rw [if_pos (by simpa [allclose] using hc)] at h
    cases h
    refine ⟨rfl, rfl, by field_simp,
      ⟨(docShot f.data.all second + docShot f.randoms.all second * a ^ 2) / A, by simp [div, hpos.ne'], ?_⟩, ?_⟩
    · field_simp
    · rwa [abs_of_pos hpos] at hc
  · rw [if_neg (by simpa [allclose] using hc)] at h
    cases h

/-- C71: norms that differ by more raise. -/
theorem attrs_raise (f : Fkp) (second : Row → ℚ) (a : ℚ) (ha : alpha f = some a)
    (hpos : 0 < a * docNorm f.randoms.all second)
    (h : 1 / 10 ^ 8 + 5 / 100 * (a * docNorm f.randoms.all second) < |docNorm f.data.all second - a * docNorm f.randoms.all second|) :
    setAttrs f second noAttrs = .error .valueError := by
  rw [setAttrs_eq f second a ha]
  generalize a * docNorm f.randoms.all second = A at *
  unfold normFactor
  simp only [hpos, gt_iff_lt, if_true, allclose, abs_of_pos hpos, not_le.mpr h, decide_false, Bool.false_eq_true, if_false]
  rfl

theorem docNorm_perm {l l' : List Row} (h : l.Perm l') (second : Row → ℚ) : docNorm l second = docNorm l' second :=
  (h.map _).sum_eq
theorem docShot_perm {l l' : List Row} (h : l.Perm l') (second : Row → ℚ) : docShot l second = docShot l' second :=
  (h.map _).sum_eq

/-- C71: norms and shot noise do not depend on the ranks and the order of the objects. -/
theorem attrs_indep (f f' : Fkp) (second : Row → ℚ) (a : ℚ) (ha : alpha f = some a)
    (hd : f.data.all.Perm f'.data.all) (hr : f.randoms.all.Perm f'.randoms.all) :
    setAttrs f second noAttrs = setAttrs f' second noAttrs := by
  have ha' : alpha f' = some a := by
    rw [← ha]; unfold alpha weightedTotal
    rw [allSum_perm hd, allSum_perm hr]
  rw [setAttrs_eq f second a ha, setAttrs_eq f' second a ha', docNorm_perm hd, docNorm_perm hr, docShot_perm hd,
    docShot_perm hr]

/-- C71: with `k` copies of the randoms `alpha` is divided by `k`, the norms are the same, and the part of the randoms in
the shot noise is divided by `k`. -/
theorem attrs_replicate (f : Fkp) (c : Cat) (second : Row → ℚ) (a n n' : ℚ) (k : Nat) (hk : 0 < k) (at' at2 : Attrs)
    (ha : alpha f = some a) (hc : c.all.Perm (List.replicate k f.randoms.all).flatten)
    (hpos : 0 < a * docNorm f.randoms.all second)
    (h : setAttrs f second noAttrs = .ok (n, at')) (h' : setAttrs { f with randoms := c } second noAttrs = .ok (n', at2)) :
    alpha { f with randoms := c } = some (a / k) ∧ n = n' ∧ at2.randomsNorm = at'.randomsNorm ∧ at2.dataNorm = at'.dataNorm ∧
    ∃ A S S', at'.randomsNorm = some (some A) ∧ at'.shotnoise = some (some S) ∧ at2.shotnoise = some (some S') ∧
      S * A = docShot f.data.all second + a ^ 2 * docShot f.randoms.all second ∧
      S' * A = docShot f.data.all second + a ^ 2 * docShot f.randoms.all second / k := by
  have hk' : (k : ℚ) ≠ 0 := Nat.cast_ne_zero.mpr (by omega)
  have hsum : ∀ g : Row → ℚ, (c.all.map g).sum = k * (f.randoms.all.map g).sum := by
    intro g
    rw [(hc.map _).sum_eq]
    clear hc hk hk'
    induction k with
    | zero => simp
    | succ k ih =>
      simp only [List.replicate_succ, List.flatten_cons, List.map_append, List.sum_append, ih]
      push_cast; ring
  have hr0 : compSum f.randoms ≠ 0 := by
    intro h0; rw [(alpha_spec f).1 h0] at ha; cases ha
  obtain ⟨a1, ha1, he⟩ := (alpha_spec f).2 hr0
  rw [ha] at ha1; cases ha1
  have hc0 : compSum c = k * compSum f.randoms := hsum _
  have ha' : alpha { f with randoms := c } = some (a / k) := by
    have hcr : compSum ({ f with randoms := c } : Fkp).randoms ≠ 0 := by
      show compSum c ≠ 0
      rw [hc0]; exact mul_ne_zero hk' hr0
    obtain ⟨a2, ha2, he2⟩ := (alpha_spec { f with randoms := c }).2 hcr
    rw [ha2]
    have he3 : a2 * compSum c = compSum f.data := he2
    rw [hc0, ← he] at he3
    congr 1
    field_simp
    have := mul_right_cancel₀ (b := compSum f.randoms) (a := a2 * k) (c := a) hr0 (by rw [← he3]; ring)
    rw [← this]
  have hn : docNorm c.all second = k * docNorm f.randoms.all second := hsum _
  have hs : docShot c.all second = k * docShot f.randoms.all second := hsum _
  have hA : a / k * docNorm c.all second = a * docNorm f.randoms.all second := by rw [hn]; field_simp
  obtain ⟨A, hA1, r1, d1, n1, ⟨S, s1, e1⟩, -⟩ := attrs_ok f second a n at' ha h hpos
  obtain ⟨A2, hA2, r2, d2, n2, ⟨S2, s2, e2⟩, -⟩ := attrs_ok _ second (a / k) n' at2 ha' h' (by
    show 0 < a / k * docNorm c.all second
    rw [hA]; exact hpos)
  have hAA : A2 = A := by rw [hA1, hA2]; exact hA
  subst hAA
  have hA0 : A2 ≠ 0 := by rw [hA1]; exact hpos.ne'
  refine ⟨ha', mul_right_cancel₀ hA0 (n1.trans n2.symm), r2.trans r1.symm, d2.trans d1.symm, A2, S, S2, r1, s1, s2, e1, ?_⟩
  rw [e2]
  show docShot f.data.all second + (a / k) ^ 2 * docShot c.all second = _
  rw [hs]
  field_simp

/-- Rows of the example below: nbar 2 and weights 1. -/
def exFkp : Fkp := ⟨⟨[[row 0 0 0 1 (1/2) 2], [row 1 1 1 2 (1/2) 2]], true, true⟩,
  ⟨[[row 0 0 0 1 (1/2) 2, row 0 0 0 1 (1/2) 2], [row 0 0 0 2 (1/2) 2]], true, true⟩, none, fun _ => 0⟩

/-- The three attributes of a result. -/
def attrsOf (r : Except Err (ℚ × Attrs)) : Option (ℚ × Option (Option ℚ) × Option (Option ℚ) × Option (Option ℚ)) :=
  match r with
  | .ok (n, at') => some (n, at'.dataNorm, at'.randomsNorm, at'.shotnoise)
  | .error _ => none

/-- Non-vacuity. -/
example : alpha exFkp = some (3/4) ∧ 0 < (3/4 : ℚ) * docNorm exFkp.randoms.all Row.fkp ∧
    attrsOf (setAttrs exFkp Row.fkp noAttrs) = some (2/3, some (some (3/2)), some (some (3/2)), some (some (67/48))) := by
  refine ⟨by decide +kernel, by decide +kernel, by decide +kernel⟩

/-- C71 fails without randoms, which the code supports: the spectra are not normalised, and the shot noise is not a finite
number. -/
theorem shotnoise_no_randoms (f : Fkp) (second : Row → ℚ) (h : f.randoms.all = []) :
    ∃ at', setAttrs f second noAttrs = .ok (1, at') ∧ at'.randomsNorm = some (some 0) ∧ at'.shotnoise = some none := by
  have ha : alpha f = none := (alpha_spec f).1 (by simp [compSum, h])
  have hne' : f.randoms.selected.flatten.isEmpty = true := by rw [selected_flatten, h]; rfl
  unfold setAttrs normalization normSum noAttrs shotnoise
  simp only [ha, hne', if_true, Option.map_none, bind, Except.bind, pure, Except.pure, normFactor, gt_iff_lt,
    lt_irrefl, if_false, div, Option.bind_eq_bind, Option.bind_none]
  exact ⟨_, rfl, rfl, rfl⟩

/-- C71 fails for a second call: `shotnoise` of a finished object raises `UnboundLocalError`. -/
theorem shotnoise_twice (f : Fkp) (second : Row → ℚ) (n : ℚ) (at' : Attrs) (h : setAttrs f second noAttrs = .ok (n, at')) (al : Option ℚ) :
    shotnoise f second al at' = .error .unboundLocal := by
  have : ∃ s, at'.shotnoise = some s := by
    unfold setAttrs at h
    simp only [bind, Except.bind, pure, Except.pure] at h
    split at h
    · cases h
    · split at h
      · cases h
      · cases h; exact ⟨_, rfl⟩
  obtain ⟨s, hs⟩ := this
  unfold shotnoise
  rw [hs]

/-- C71: a second call of `normalization` gives the stored value. -/
theorem normalization_again (f : Fkp) (second : Row → ℚ) (s : Species) (al al' : Option ℚ) (at' : Attrs) :
    normalization f second s al' (normalization f second s al at').2 = normalization f second s al at' := by
  cases s with
  | data => unfold normalization; cases h : at'.dataNorm <;> simp [h]
  | randoms => unfold normalization; cases h : at'.randomsNorm <;> simp [h]

/-- C71 fails for small norms: with the absolute tolerance of `allclose` norms that differ by a factor of two pass the check
of 5%. -/
theorem norm_check_small : ∃ (f : Fkp) (a n : ℚ) (at' : Attrs), alpha f = some a ∧
    0 < a * docNorm f.randoms.all Row.fkp ∧ setAttrs f Row.fkp noAttrs = .ok (n, at') ∧
    docNorm f.data.all Row.fkp = 2 * (a * docNorm f.randoms.all Row.fkp) := by
  refine ⟨⟨⟨[[row 0 0 0 1 1 (2 / 10 ^ 9)]], true, true⟩, ⟨[[row 0 0 0 1 1 (1 / 10 ^ 9)]], true, true⟩, none, fun _ => 0⟩,
    1, 10 ^ 9, ⟨some (some (2 / 10 ^ 9)), some (some (1 / 10 ^ 9)), some (some (2 * 10 ^ 9))⟩, ?_, ?_, ?_, ?_⟩
  · decide +kernel
  · decide +kernel
  · have e : ∀ x y : Except Err (ℚ × Attrs), attrsOf x = attrsOf y → (attrsOf y).isSome → x = y := by
      intro x y h1 h2
      cases x with
      | error e => rw [← h1] at h2; cases h2
      | ok p =>
        cases y with
        | error e => cases h2
        | ok q =>
          obtain ⟨n1, a1, a2, a3⟩ := p
          obtain ⟨n2, b1, b2, b3⟩ := q
          simp only [attrsOf, Option.some.injEq, Prod.mk.injEq] at h1
          obtain ⟨rfl, rfl, rfl, rfl⟩ := h1
          rfl
    apply e
    · decide +kernel
    · rfl
  · decide +kernel

/-! ## C72: the two meshes of a cross-correlation -/

/-- C72: two meshes are accepted exactly if they use the same catalog object and the same columns for selection,
completeness weight and nbar; a mesh is accepted with itself. -/
theorem cross_valid (u1 u2 : Use) (m1 m2 : Mesh) :
    ((∃ p, initPower u1 u2 m1 m2 = .ok p) ↔ u1 = u2) ∧ (u1 ≠ u2 → initPower u1 u2 m1 m2 = .error .notImplemented) := by
  have : isValidCrosscorr u1 u2 = true ↔ u1 = u2 := by
    obtain ⟨a, b, c, d⟩ := u1
    obtain ⟨a', b', c', d'⟩ := u2
    simp only [isValidCrosscorr, Use.mk.injEq]
    by_cases h1 : a' = a <;> by_cases h2 : b' = b <;> by_cases h3 : c' = c <;> by_cases h4 : d' = d <;>
      simp_all [eq_comm]
  unfold initPower
  by_cases h : u1 = u2
  · rw [if_pos (this.mpr h)]; exact ⟨⟨fun _ => h, fun _ => ⟨_, rfl⟩⟩, fun h' => absurd h h'⟩
  · rw [if_neg (fun h' => h (this.mp h'))]
    refine ⟨⟨?_, fun h' => absurd h' h⟩, fun _ => rfl⟩
    rintro ⟨p, hp⟩; cases hp

/-- C72: whatever happens, afterwards both meshes have the same box size, at least as large as both on every axis; and where
the centers agree before, the joint box has this center. -/
theorem joint_size_partial (m1 m2 : Mesh) (a : Axis) :
    (joinBoxes m1 m2).1.boxSize a = (joinBoxes m1 m2).2.boxSize a ∧
    m1.boxSize a ≤ (joinBoxes m1 m2).1.boxSize a ∧ m2.boxSize a ≤ (joinBoxes m1 m2).1.boxSize a ∧
    ((joinBoxes m1 m2).1.boxSize a = m1.boxSize a ∨ (joinBoxes m1 m2).1.boxSize a = m2.boxSize a) ∧
    (m1.boxCenter a = m2.boxCenter a → (joinBoxes m1 m2).1.boxCenter a = m1.boxCenter a ∧
      (joinBoxes m1 m2).2.boxCenter a = m1.boxCenter a) := by
  unfold joinBoxes
  split
  · rename_i h
    have : m1.boxSize a = m2.boxSize a := by
      match a with
      | 0 => exact h.1
      | 1 => exact h.2.1
      | 2 => exact h.2.2
    exact ⟨this, le_refl _, this.symm.le, Or.inl rfl, fun h' => ⟨rfl, h'.symm⟩⟩
  · simp only [Mesh.recenterBox, jointAxis]
    split
    · rename_i h; exact ⟨trivial, h.le, le_refl _, Or.inr rfl, fun h' => ⟨h'.symm, h'.symm⟩⟩
    · rename_i h; exact ⟨trivial, le_refl _, not_lt.mp h, Or.inl rfl, fun h' => ⟨rfl, rfl⟩⟩

/-- C72: if the sizes differ both meshes have the same center afterwards too. -/
theorem joint_center (m1 m2 : Mesh) (h : m1.boxSize ≠ m2.boxSize) :
    (joinBoxes m1 m2).1.boxCenter = (joinBoxes m1 m2).2.boxCenter := by
  unfold joinBoxes
  split
  · rename_i h'
    exfalso; apply h; funext a
    match a with
    | 0 => exact h'.1
    | 1 => exact h'.2.1
    | 2 => exact h'.2.2
  · rfl

/-- C72: where the centers agree before, the joint box contains what either box contained. -/
theorem joint_contains_partial (m1 m2 : Mesh) (a : Axis) (hc : m1.boxCenter a = m2.boxCenter a) (r : Row)
    (h : |m1.recentered r a| ≤ m1.boxSize a / 2 ∨ |m2.recentered r a| ≤ m2.boxSize a / 2) :
    |(joinBoxes m1 m2).1.recentered r a| ≤ (joinBoxes m1 m2).1.boxSize a / 2 := by
  obtain ⟨-, h1, h2, -, h3⟩ := joint_size_partial m1 m2 a
  unfold Mesh.recentered at *
  rw [(h3 hc).1]
  rcases h with h | h
  · exact h.trans (by linarith)
  · rw [← hc] at h; exact h.trans (by linarith)

/-- A mesh with a box, for the examples. -/
def boxMesh (f : Fkp) (L C : Axis → ℚ) : Mesh := ⟨f, L, C, L, fun _ => 2⟩

/-- C72 fails: the "box big enough for both" does not contain the smaller box if the centers differ. -/
theorem joint_misses : ∃ (m1 m2 : Mesh) (r : Row), |m2.recentered r 0| ≤ m2.boxSize 0 / 2 ∧
    (joinBoxes m1 m2).1.boxSize 0 / 2 < |(joinBoxes m1 m2).1.recentered r 0| := by
  refine ⟨boxMesh exFkp (fun _ => 4) (fun _ => 0), boxMesh exFkp (fun _ => 2) (fun _ => 10), row 10 0 0 1 1 1, ?_, ?_⟩ <;>
  decide +kernel

/-- C72 fails: boxes of the same size with other centers are not joined, so that the two fields are painted with different
origins. -/
theorem joint_same_size : ∃ m1 m2 : Mesh, (joinBoxes m1 m2).1.boxCenter ≠ (joinBoxes m1 m2).2.boxCenter := by
  refine ⟨boxMesh exFkp (fun _ => 4) (fun _ => 0), boxMesh exFkp (fun _ => 4) (fun _ => 1), ?_⟩
  intro h
  have := congrFun h 0
  revert this
  decide +kernel

/-- C72 fails: joining changes the box attributes but not `pm`, with which the field is divided by the volume of a cell
and the wavenumbers are made. The field of the joined mesh is not the one of a mesh made with the joint box. -/
theorem joint_stale : ∃ (m1 m2 : Mesh), m1.pmSize = m1.boxSize ∧ m2.pmSize = m2.boxSize ∧
    m1.boxCenter = m2.boxCenter ∧ (joinBoxes m1 m2).1.pmSize ≠ (joinBoxes m1 m2).1.boxSize ∧
    toRealField twoCells (joinBoxes m1 m2).1 true ≠
      toRealField twoCells { (joinBoxes m1 m2).1 with pmSize := (joinBoxes m1 m2).1.boxSize } true := by
  refine ⟨exMesh, { exMesh with boxSize := fun _ => 8, pmSize := fun _ => 8 }, rfl, rfl, rfl, ?_, ?_⟩
  · intro h
    have := congrFun h 0
    revert this
    decide +kernel
  · decide +kernel

end NBK.Fkp
