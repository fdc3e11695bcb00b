import Verif.Fkp.Props

/-! C71: units of weights, densities and lengths in the field, the norms and the shot noise. -/

set_option linter.unusedSimpArgs false

namespace NBK.Fkp

/-- A change of units: completeness weights times `s`, densities times `u`, positions times `L`. -/
def unitRow (s u L : ℚ) (r : Row) : Row := { r with comp := s * r.comp, nbar := u * r.nbar, pos := fun a => L * r.pos a }

def unitCat (s u L : ℚ) (c : Cat) : Cat := { c with rows := c.rows.map (·.map (unitRow s u L)) }

/-- The units of the weights of data and randoms may differ. -/
def unitFkp (s t u L : ℚ) (f : Fkp) : Fkp :=
  { data := unitCat s u L f.data, randoms := unitCat t u L f.randoms, boxSize := f.boxSize.map fun b a => L * b a, boxPad := f.boxPad }

def unitMesh (s t u L : ℚ) (m : Mesh) : Mesh :=
  { cat := unitFkp s t u L m.cat, boxSize := fun a => L * m.boxSize a, boxCenter := fun a => L * m.boxCenter a, pmSize := fun a => L * m.pmSize a, nmesh := m.nmesh }

theorem unit_all (s u L : ℚ) (c : Cat) : (unitCat s u L c).all = c.all.map (unitRow s u L) := by
  unfold unitCat Cat.all
  simp only
  induction c.rows with
  | nil => rfl
  | cons l ls ih =>
    simp only [List.map_cons, List.flatten_cons, List.filter_append, List.map_append, ih]
    congr 1
    rw [List.filter_map]
    rfl

theorem unit_csize (s u L : ℚ) (c : Cat) : (unitCat s u L c).csize = c.csize := by
  unfold Cat.csize unitCat
  rw [List.map_map]
  congr 1
  apply List.map_congr_left
  intro l _
  simp

theorem unit_sum (s u L : ℚ) (c : Cat) (g g' : Row → ℚ) (k : ℚ) (h : ∀ r, g' (unitRow s u L r) = k * g r) : ((unitCat s u L c).all.map g').sum = k * (c.all.map g).sum := by
  rw [unit_all, List.map_map, ← List.sum_map_mul_left]
  congr 1
  apply List.map_congr_left
  intro r _
  exact h r

/-- C70: `alpha` is multiplied with the ratio of the units of the weights. -/
theorem alpha_units (s t u L : ℚ) (ht : t ≠ 0) (f : Fkp) : alpha (unitFkp s t u L f) = (alpha f).map fun a => s / t * a := by
  have h1 : weightedTotal (unitFkp s t u L f).data = s * weightedTotal f.data := by
    unfold weightedTotal
    rw [allSum_eq, allSum_eq]
    exact unit_sum s u L f.data _ _ s fun _ => rfl
  have h2 : weightedTotal (unitFkp s t u L f).randoms = t * weightedTotal f.randoms := by
    unfold weightedTotal
    rw [allSum_eq, allSum_eq]
    exact unit_sum t u L f.randoms _ _ t fun _ => rfl
  unfold alpha
  rw [h1, h2]
  by_cases h0 : weightedTotal f.randoms = 0
  · simp [h0]
  · rw [if_neg (mul_ne_zero ht h0), if_neg h0, Option.map_some, mul_div_mul_comm]

/-- C70: **the field** has the unit of the weights of the data over a volume; a window that depends on positions in units of the box is assumed. The unit of the weights of
the randoms does not matter. -/
theorem field_units {X : Type} (win : (Axis → ℚ) → (Axis → ℚ) → X → ℚ) (s t u L : ℚ) (ht : t ≠ 0) (hL : L ≠ 0)
    (hw : ∀ b p x, win (fun a => L * b a) (fun a => L * p a) x = win b p x) (m : Mesh) (x : X) :
    toRealField win (unitMesh s t u L m) x = (toRealField win m x).map fun v => s / L ^ 3 * v := by
  have hp : ∀ (k : ℚ) (c : Cat), paint win (unitMesh s t u L m) (unitCat k u L c) x = k * paint win m c x := by
    intro k c
    unfold paint
    rw [allSum_eq, allSum_eq]
    refine unit_sum k u L c _ _ k fun r => ?_
    have e : (unitMesh s t u L m).recentered (unitRow k u L r) = fun a => L * m.recentered r a := by
      funext a
      show L * r.pos a - L * m.boxCenter a = L * (r.pos a - m.boxCenter a)
      ring
    rw [e]
    show k * r.comp * r.fkp * r.val * win (fun a => L * m.boxSize a) (fun a => L * m.recentered r a) x = _
    rw [hw]
    ring
  have hv : (unitMesh s t u L m).cellVolume = L ^ 3 * m.cellVolume := by
    show (L * m.pmSize 0 / m.nmesh 0) * (L * m.pmSize 1 / m.nmesh 1) * (L * m.pmSize 2 / m.nmesh 2) = _
    unfold Mesh.cellVolume
    ring
  have hc : (unitMesh s t u L m).cat.randoms.csize = m.cat.randoms.csize := unit_csize t u L _
  unfold toRealField
  rw [hv, hc]
  show Option.map _ (if m.cat.randoms.csize > 0 then do
      let r ← some (paint win (unitMesh s t u L m) (unitCat s u L m.cat.data) x)
      let a ← alpha (unitFkp s t u L m.cat)
      pure (r + paint win (unitMesh s t u L m) (unitCat t u L m.cat.randoms) x * (-1 * a))
    else some (paint win (unitMesh s t u L m) (unitCat s u L m.cat.data) x)) = _
  rw [hp, hp, alpha_units s t u L ht]
  dsimp only
  by_cases h0 : m.cat.randoms.csize > 0
  · rw [if_pos h0, if_pos h0]
    cases alpha m.cat with
    | none => rfl
    | some a =>
      simp only [Option.map_some, bind, Option.bind, pure, Option.some.injEq]
      rw [mul_comm (L ^ 3), div_mul_eq_div_div]
      field_simp
  · rw [if_neg h0, if_neg h0]
    simp only [Option.map_some, Option.some.injEq]
    rw [mul_comm (L ^ 3), div_mul_eq_div_div]
    field_simp

/-- C71: **the norms** have the unit of the weights of the data times a density, and **the shot noise** that of the weights over a density. -/
theorem attrs_units (s t u L : ℚ) (hs : 0 < s) (ht : t ≠ 0) (hu : 0 < u) (f : Fkp) (second second' : Row → ℚ) (hsec : ∀ k r, second' (unitRow k u L r) = second r)
    (a n n' : ℚ) (at' at2 : Attrs) (ha : alpha f = some a) (hpos : 0 < a * docNorm f.randoms.all second)
    (h : setAttrs f second noAttrs = .ok (n, at')) (h' : setAttrs (unitFkp s t u L f) second' noAttrs = .ok (n', at2)) :
    n' = n / (s * u) ∧ ∃ A B S, at'.randomsNorm = some (some A) ∧ at'.dataNorm = some (some B) ∧ at'.shotnoise = some (some S) ∧
      at2.randomsNorm = some (some (s * u * A)) ∧ at2.dataNorm = some (some (s * u * B)) ∧ at2.shotnoise = some (some (s / u * S)) := by
  have hsu : s * u ≠ 0 := (mul_pos hs hu).ne'
  have ha' : alpha (unitFkp s t u L f) = some (s / t * a) := by rw [alpha_units s t u L ht, ha]; rfl
  have hn : ∀ (k : ℚ) (c : Cat), docNorm (unitCat k u L c).all second' = k * u * docNorm c.all second := fun k c =>
    unit_sum k u L c _ _ (k * u) fun r => by
      rw [hsec]
      show k * r.comp * (u * r.nbar) * r.fkp * second r = _
      ring
  have hq : ∀ (k : ℚ) (c : Cat), docShot (unitCat k u L c).all second' = k ^ 2 * docShot c.all second := fun k c =>
    unit_sum k u L c _ _ (k ^ 2) fun r => by
      rw [hsec]
      show k * r.comp * r.fkp * (k * r.comp * second r) = _
      ring
  have hA : s / t * a * docNorm (unitFkp s t u L f).randoms.all second' = s * u * (a * docNorm f.randoms.all second) := by
    show s / t * a * docNorm (unitCat t u L f.randoms).all second' = _
    rw [hn]
    field_simp
  obtain ⟨A, hA1, r1, d1, n1, ⟨S, s1, e1⟩, -⟩ := attrs_ok f second a n at' ha h hpos
  obtain ⟨A2, hA2, r2, d2, n2, ⟨S2, s2, e2⟩, -⟩ := attrs_ok _ second' (s / t * a) n' at2 ha' h' (by rw [hA]; exact mul_pos (mul_pos hs hu) hpos)
  have hAA : A2 = s * u * A := by rw [hA2, hA, hA1]
  have hA0 : A ≠ 0 := by rw [hA1]; exact hpos.ne'
  subst hAA
  refine ⟨?_, A, _, S, r1, d1, s1, r2, ?_, ?_⟩
  · rw [eq_div_iff hsu]
    exact mul_right_cancel₀ hA0 (by rw [mul_assoc, n2, n1])
  · rw [d2]
    show some (some (docNorm (unitCat s u L f.data).all second')) = _
    rw [hn]
  · rw [s2]
    congr 2
    have : S2 * (s * u * A) = s ^ 2 * (S * A) := by
      rw [e2, e1]
      show docShot (unitCat s u L f.data).all second' + (s / t * a) ^ 2 * docShot (unitCat t u L f.randoms).all second' = _
      rw [hq, hq]
      field_simp
    have hs0 := hs.ne'
    have hu0 := hu.ne'
    apply mul_right_cancel₀ (mul_ne_zero hsu hA0)
    rw [this]
    field_simp

/-- C71: **the products of the field that make up the spectra have the unit of the shot noise**: with weights times `s` and densities times `u`, the norm times the
product of two values of the field, each times a volume, is multiplied with `s / u`. -/
theorem spectrum_units {X : Type} (win : (Axis → ℚ) → (Axis → ℚ) → X → ℚ) (s t u L : ℚ) (hs : 0 < s) (ht : t ≠ 0) (hu : 0 < u) (hL : L ≠ 0)
    (hw : ∀ b p x, win (fun a => L * b a) (fun a => L * p a) x = win b p x) (m : Mesh) (second second' : Row → ℚ) (hsec : ∀ k r, second' (unitRow k u L r) = second r)
    (a n n' : ℚ) (at' at2 : Attrs) (ha : alpha m.cat = some a) (hpos : 0 < a * docNorm m.cat.randoms.all second)
    (h : setAttrs m.cat second noAttrs = .ok (n, at')) (h' : setAttrs (unitFkp s t u L m.cat) second' noAttrs = .ok (n', at2)) (x y : X) (fx fy V : ℚ)
    (hx : toRealField win m x = some fx) (hy : toRealField win m y = some fy) :
    ∃ fx' fy', toRealField win (unitMesh s t u L m) x = some fx' ∧ toRealField win (unitMesh s t u L m) y = some fy' ∧
      n' * ((L ^ 3 * V) * fx') * ((L ^ 3 * V) * fy') = s / u * (n * (V * fx) * (V * fy)) := by
  refine ⟨_, _, by rw [field_units win s t u L ht hL hw, hx]; rfl, by rw [field_units win s t u L ht hL hw, hy]; rfl, ?_⟩
  rw [(attrs_units s t u L hs ht hu m.cat second second' hsec a n n' at' at2 ha hpos h h').1]
  have hs0 := hs.ne'
  have hu0 := hu.ne'
  field_simp

/-- C68: weights from `P0` do not depend on the units, if `P0` is given in the unit of an inverse density. -/
theorem weight_units (P0 nbar u : ℚ) (hu : u ≠ 0) : fkpWeight (P0 / u) (u * nbar) = fkpWeight P0 nbar := by
  unfold fkpWeight
  by_cases h : P0 = 0
  · simp [h]
  · rw [if_pos (div_ne_zero h hu), if_pos h, show P0 / u * (u * nbar) = P0 * nbar by field_simp]

/-! ## Cases -/

/-- Data with a density that differs by 10% from that of the randoms. -/
def exBad : Fkp := ⟨⟨[[row 0 0 0 1 1 2], [row 1 1 1 1 1 2]], true, true⟩, ⟨[[row 0 0 0 1 1 2], [row 1 1 1 1 1 (18/10)]], true, true⟩, none, fun _ => 0⟩

/-- The hypotheses are met: weights of the data times 2, of the randoms times 3, densities times 5. -/
theorem case_units : attrsOf (setAttrs exFkp Row.fkp noAttrs) = some (2/3, some (some (3/2)), some (some (3/2)), some (some (67/48))) ∧
    attrsOf (setAttrs (unitFkp 2 3 5 7 exFkp) Row.fkp noAttrs) = some (2/3 / (2 * 5), some (some (2 * 5 * (3/2))), some (some (2 * 5 * (3/2))), some (some (2 / 5 * (67/48)))) := by
  refine ⟨by decide +kernel, by decide +kernel⟩

/-- **C71 does not hold in all units**: whether the norms agree is decided with an absolute tolerance of 1e-8, so catalogs that raise in `Mpc/h` pass in `kpc/h`. -/
theorem check_units : ¬ ∀ (f : Fkp) (L : ℚ), 0 < L → (attrsOf (setAttrs (unitFkp 1 1 (1 / L ^ 3) L f) Row.fkp noAttrs)).isSome → (attrsOf (setAttrs f Row.fkp noAttrs)).isSome := by
  intro h
  have := h exBad 1000 (by norm_num) (by decide +kernel)
  revert this
  decide +kernel

end NBK.Fkp
