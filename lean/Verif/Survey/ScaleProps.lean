import Verif.Survey.MoreProps
import Verif.Survey.AttrProps
import Verif.Survey.CaseProps
import Verif.Survey.MonoProps

/-!
# `ConvolvedFFTPower` of catalogs (C137): the units of the weights
-/
set_option linter.unusedSimpArgs false
set_option synthInstance.maxSize 1000
namespace NBK.Survey
open NBK

variable {n : Nat} {K : Type} [CommRing K] [Algebra ℚ K]

/-- The row with the column `c` multiplied by `t`. -/
def timesCol (c : String) (t : ℚ) (r : Raw) : Raw := { r with num := fun d => if d = c then t * r.num d else r.num d }

/-- The catalogs with the column `c` of the randoms multiplied by `t`, distributed in any way. -/
structure Rescaled (mc mc' : Machine n) (c : String) (t : ℚ) : Prop where
  data : ∀ i, (mc.cats i).data.flatten.Perm (mc'.cats i).data.flatten
  randoms : ∀ i, (mc'.cats i).randoms.flatten.Perm ((mc.cats i).randoms.flatten.map (timesCol c t))
  slabs : mc'.slabs = mc.slabs

/-- Sums over the selected rows of a quantity that is multiplied by `u`. -/
theorem chosen_scaled {R : Type} [CommRing R] (m : ConvObj.Mesh) (c : String) (t : ℚ) (u : R) (g : Raw → R) (hg : ∀ r, g (timesCol c t r) = u * g r)
    (rows rows' : List (List Raw)) (h : rows'.flatten.Perm (rows.flatten.map (timesCol c t))) :
    ((chosen m rows').map g).sum = u * ((chosen m rows).map g).sum := by
  unfold chosen
  rw [((h.filter _).map _).sum_eq]
  generalize rows.flatten = l
  clear h
  induction l with
  | nil => simp
  | cons r l ih =>
    have hs : (timesCol c t r).flag m.selection = r.flag m.selection := rfl
    rw [List.map_cons, List.filter_cons, List.filter_cons, hs]
    cases r.flag m.selection
    · exact ih
    · simp only [if_true, List.map_cons, List.sum_cons, ih, hg, mul_add]

/-- What a mesh reads from the columns: the completeness weights, and no other column, are in the column `c`. -/
structure Reads (m : ConvObj.Mesh) (c : String) : Prop where
  comp : m.compWeight = c
  fkp : m.fkpWeight ≠ c
  nbar : m.nbar ≠ c
  value : "Value" ≠ c

theorem Reads.mass {m : ConvObj.Mesh} {c : String} (h : Reads m c) (t : ℚ) (r : Raw) : massOf m (timesCol c t r) = t * massOf m r := by
  unfold massOf timesCol
  simp only [h.comp, h.fkp, h.value, if_true, if_false]
  ring

theorem Reads.total {m : ConvObj.Mesh} {c : String} (h : Reads m c) (w : World n K) (t : ℚ) (L : Fin n → K) (q : Fin n) (rows rows' : List (List Raw))
    (hp : rows'.flatten.Perm (rows.flatten.map (timesCol c t))) : total w m L q rows' = algebraMap ℚ K t * Survey.total w m L q rows := by
  unfold Survey.total
  apply chosen_scaled m c t _ _ _ _ _ hp
  intro r
  rw [h.mass, map_mul, mul_assoc]
  rfl

theorem Reads.final {m : ConvObj.Mesh} {c : String} (h : Reads m c) (n1 n2 : ConvObj.Mesh) : Reads (final n1 n2 m) c := by
  unfold Survey.final ConvObj.clearMesh
  split_ifs
  · exact ⟨h.comp, h.fkp, h.nbar, h.value⟩
  · exact ⟨h.comp, h.fkp, h.nbar, h.value⟩

theorem shot_zero (f : Fkp.Fkp) (al : Option ℚ) : shotOf f al (some 0) = none := by
  unfold shotOf Fkp.shotnoise
  cases al <;> simp [Fkp.div]

/-- C137: if the completeness weights of the randoms are multiplied by `t`, the table - every multipole -, the edges, the norms and the shot noise are the
same, and `alpha` is divided by `t`. -/
theorem randoms_rescaled (w : World n K) (leg : List ℚ → Nat → Fin n → Fin n → K) (hl : Legendre w leg) (mc mc' : Machine n) (c : String) (t : ℚ) (ht : t ≠ 0)
    (hc : Rescaled mc mc' c t) (h : ConvObj.Heap) (g : ConvObj.Args) (h1 h2 : ConvObj.Heap) (o o' : ConvObj.Obj) (hk : call w mc h g = (h1, .ok o))
    (hk' : call w mc' h g = (h2, .ok o')) (i j : Nat) (n1 n2 : ConvObj.Mesh) (hi : h[i]? = some n1) (hj : h[j]? = some n2) (hf : g.first = .mesh i)
    (hs : g.second = some (.mesh j) ∨ (g.second = none ∧ j = i)) (hn1 : Reads n1 c) (hn2 : Reads n2 c) (a : ℚ) (ha : o.attrs.alpha = some a) :
    o'.attrs.alpha = some (a / t) ∧ o'.attrs.dataNorm = o.attrs.dataNorm ∧ o'.attrs.randomsNorm = o.attrs.randomsNorm ∧
    o'.attrs.shotnoise = o.attrs.shotnoise ∧ o'.edges = o.edges ∧ o'.poles.data = o.poles.data := by
  have q1 := hn1.final n1 n2
  have q2 := hn2.final n1 n2
  obtain ⟨p1, p2⟩ := call_meshes w mc h g h1 o hk i j n1 n2 hi hj hf hs
  obtain ⟨p1', p2'⟩ := call_meshes w mc' h g h2 o' hk' i j n1 n2 hi hj hf hs
  obtain ⟨r1, r2, m1, m2, norm, ed, a1, a2, a3, a4, a5, a6, a7, a8, a9, ⟨cs, a10⟩, a11, a12, a13, a14⟩ := call_direct w mc leg hl h g h1 o hk
  obtain ⟨s1, s2, M1, M2, norm', ed', b1, b2, b3, b4, b5, b6, b7, b8, b9, ⟨cs', b10⟩, b11, b12, b13, b14⟩ := call_direct w mc' leg hl h g h2 o' hk'
  have e1 : r1 = i := a3 i hf
  have e2 : s1 = i := b3 i hf
  have e3 : r2 = j := by
    rcases hs with hs | ⟨hs, hj⟩
    · exact a4 j hs
    · rw [a5 hs, e1, hj]
  have e4 : s2 = j := by
    rcases hs with hs | ⟨hs, hj⟩
    · exact b4 j hs
    · rw [b5 hs, e2, hj]
  subst e1
  rw [e2] at b1
  rw [e3] at a2
  rw [e4] at b2
  rw [p1] at a1; rw [p2] at a2; rw [p1'] at b1; rw [p2'] at b2
  cases a1; cases a2; cases b1; cases b2
  generalize hm1 : final n1 n2 n1 = m1 at *
  generalize hm2 : final n1 n2 n2 = m2 at *
  rw [kBins_slabs w mc mc' hc.slabs, a10] at b10
  cases b10
  have hal : ∀ m b, Reads m c → Fkp.alpha (meshOf mc m).cat = some b → Fkp.alpha (meshOf mc' m).cat = some (b / t) := by
    intro m b hm hb
    have hd : Fkp.weightedTotal (meshOf mc' m).cat.data = Fkp.weightedTotal (meshOf mc m).cat.data := by
      unfold Fkp.weightedTotal meshOf catOf
      dsimp only
      rw [Fkp.allSum_eq, Fkp.allSum_eq, all_map, all_map]
      exact ((((hc.data _).map _).filter _).map _).sum_eq.symm
    have hr : Fkp.weightedTotal (meshOf mc' m).cat.randoms = t * Fkp.weightedTotal (meshOf mc m).cat.randoms := by
      unfold Fkp.weightedTotal meshOf catOf
      dsimp only
      rw [Fkp.allSum_eq, Fkp.allSum_eq, sel_row m _ (rowOf m) (fun _ => rfl), sel_row m _ (rowOf m) (fun _ => rfl), List.map_map, List.map_map]
      apply chosen_scaled m c t t _ _ _ _ (hc.randoms _)
      intro r
      show (timesCol c t r).num m.compWeight = t * r.num m.compWeight
      unfold timesCol
      simp only [hm.comp, if_true]
    unfold Fkp.alpha at hb ⊢
    by_cases h0 : Fkp.weightedTotal (meshOf mc m).cat.randoms = 0
    · rw [if_pos h0] at hb; cases hb
    · rw [if_neg h0] at hb
      cases hb
      rw [hd, hr, if_neg (mul_ne_zero ht h0)]
      congr 1
      field_simp
  have ha1 : Fkp.alpha (meshOf mc m1).cat = some a := by rw [← a12]; exact ha
  have ha2 : Fkp.alpha (meshOf mc m2).cat = some a := by
    have hv : ConvObj.validCross m1 m2 = true := by
      apply (ConvObj.valid_iff m1 m2).mpr
      refine ⟨a7, a8, a9, ?_⟩
      obtain ⟨t1, t2, N1, N2, _, _, _, u1, u2, u3, u4, u5, _, _, _, _, _, _, _, u13, _⟩ := ConvObj.result_spec _ (consistent w mc) _ _ _ _ hk
      have v1 : t1 = r1 := u3 r1 (by dsimp only; rw [hf]; rfl)
      have v2 : t2 = j := by
        rcases hs with hs | ⟨hs, hj⟩
        · exact u4 j (by dsimp only; rw [hs]; rfl)
        · rw [u5 (by dsimp only; rw [hs]; rfl), v1, hj]
      rw [v1, p1] at u1
      rw [v2, p2] at u2
      cases u1
      cases u2
      exact u13
    have := (same_alpha mc m1 m2 hv []).1
    show (metaOf mc m2 []).alpha = some a
    rw [← this]; exact ha1
  obtain ⟨c1, c2, c3⟩ := a14 a a (.inl ha1) (.inl ha2)
  obtain ⟨d1, d2, d3⟩ := b14 (a / t) (a / t) (.inl (hal m1 a q1 ha1)) (.inl (hal m2 a q2 ha2))
  have hdn : o'.attrs.dataNorm = o.attrs.dataNorm := by
    rw [c1, d1]
    congr 1
    exact ((((hc.data _).filter _)).map _).sum_eq.symm
  have hrn : o'.attrs.randomsNorm = o.attrs.randomsNorm := by
    rw [c2, d2]
    congr 1
    have : ((chosen m1 (mc'.cats m1.source).randoms).map fun r => r.num m2.nbar * r.num m1.compWeight * r.num m1.fkpWeight * r.num m2.fkpWeight).sum =
        t * ((chosen m1 (mc.cats m1.source).randoms).map fun r => r.num m2.nbar * r.num m1.compWeight * r.num m1.fkpWeight * r.num m2.fkpWeight).sum := by
      apply chosen_scaled m1 c t t _ _ _ _ (hc.randoms _)
      intro r
      unfold timesCol
      simp only [q1.comp, q1.fkp, q2.fkp, q2.nbar, if_true, if_false]
      ring
    rw [this]
    field_simp
  rw [hdn, hrn, a13] at b13
  cases b13
  refine ⟨by rw [b12]; exact hal m1 a q1 ha1, hdn, hrn, ?_, by rw [a6, b6], ?_⟩
  · rw [a11, b11, hrn, ha, b12, hal m1 a q1 ha1]
    obtain ⟨rn, hr⟩ : ∃ rn, o.attrs.randomsNorm = some rn := ⟨_, c2⟩
    rw [hr]
    by_cases h0 : rn = 0
    · rw [h0, shot_zero, shot_zero]
    · rw [shot_rows _ _ _ _ _ h0, shot_rows _ _ _ _ _ h0]
      have hd : ((chosen m1 (mc'.cats m1.source).data).map fun r => r.num m1.compWeight ^ 2 * r.num m1.fkpWeight * r.num m2.fkpWeight).sum =
          ((chosen m1 (mc.cats m1.source).data).map fun r => r.num m1.compWeight ^ 2 * r.num m1.fkpWeight * r.num m2.fkpWeight).sum :=
        (((hc.data _).filter _).map _).sum_eq.symm
      rw [hd, chosen_scaled m1 c t (t ^ 2) (fun r => r.num m1.compWeight ^ 2 * r.num m1.fkpWeight * r.num m2.fkpWeight) (by
        intro r
        unfold timesCol
        simp only [q1.comp, q1.fkp, q2.fkp, if_true, if_false]
        ring) _ _ (hc.randoms m1.source)]
      congr 2
      field_simp
  rw [c3, d3]
  have hamp : ∀ (m : ConvObj.Mesh), Reads m c → ∀ V L q, amplitude w (mc'.cats m.source) m V (a / t) L q = amplitude w (mc.cats m.source) m V a L q := by
    intro m hm V L q
    unfold amplitude
    rw [hm.total w t L q _ _ (hc.randoms _)]
    have e1 : total w m L q (mc'.cats m.source).data = total w m L q (mc.cats m.source).data := by
      unfold total chosen
      exact (((hc.data _).filter _).map _).sum_eq.symm
    have e2 : algebraMap ℚ K (a / t) * (algebraMap ℚ K t * total w m L q (mc.cats m.source).randoms) = algebraMap ℚ K a * total w m L q (mc.cats m.source).randoms := by
      rw [← mul_assoc]
      congr 1
      rw [← map_mul]
      congr 1
      field_simp
    rw [e1, e2]
  have hpow : ∀ ell, powerAt w mc' leg m1 m2 (a / t) (a / t) norm ell = powerAt w mc leg m1 m2 a a norm ell := by
    intro ell
    funext q
    unfold powerAt
    rw [hamp m1 q1, hamp m2 q2]
  unfold averages
  simp only [hpow, project_slabs w mc mc' hc.slabs]

/-- The randoms of the case with weights of 3 instead of 1, in another order. -/
def machW : Machine 2 := { machA with cats := fun i => { machA.cats i with randoms := (machA.cats i).randoms.map fun l => (l.map (timesCol "Weight" 3)).reverse } }

theorem rescaled_case : Rescaled machA machW "Weight" 3 ∧ Reads meshA "Weight" ∧
    (call world machA [meshA] gM).2.toOption.map view = some ([("k", [.fin 0, .fin 1]), ("power_0.real", [.fin 0, .fin 16]),
      ("power_0.imag", [.fin 0, .fin 0]), ("modes", [.fin 1, .fin 1])], some [0, 1, 2], some (1 / 2), some 1, some (3 / 4), [3, 1, 1], [0, 0, 0]) ∧
    (call world machW [meshA] gM).2.toOption.map view = some ([("k", [.fin 0, .fin 1]), ("power_0.real", [.fin 0, .fin 16]),
      ("power_0.imag", [.fin 0, .fin 0]), ("modes", [.fin 1, .fin 1])], some [0, 1, 2], some (1 / 6), some 1, some (3 / 4), [3, 1, 1], [0, 0, 0]) := by
  refine ⟨⟨fun _ => List.Perm.refl _, fun _ => ?_, rfl⟩, ⟨by decide, by decide, by decide, by decide⟩, by decide +kernel, by decide +kernel⟩
  show (([_] : List (List Raw)).flatten).Perm (([_] : List (List Raw)).flatten.map _)
  simp only [List.flatten_cons, List.flatten_nil, List.append_nil]
  exact List.reverse_perm _

/-- The catalogs with the column `c` of both species multiplied by `t`, distributed in any way. -/
structure RescaledBoth (mc mc' : Machine n) (c : String) (t : ℚ) : Prop where
  data : ∀ i, (mc'.cats i).data.flatten.Perm ((mc.cats i).data.flatten.map (timesCol c t))
  randoms : ∀ i, (mc'.cats i).randoms.flatten.Perm ((mc.cats i).randoms.flatten.map (timesCol c t))
  slabs : mc'.slabs = mc.slabs

/-- What a mesh reads from the columns: the FKP weights, and no other column, are in the column `c`. -/
structure ReadsFkp (m : ConvObj.Mesh) (c : String) : Prop where
  fkp : m.fkpWeight = c
  comp : m.compWeight ≠ c
  nbar : m.nbar ≠ c
  value : "Value" ≠ c

theorem ReadsFkp.mass {m : ConvObj.Mesh} {c : String} (h : ReadsFkp m c) (t : ℚ) (r : Raw) : massOf m (timesCol c t r) = t * massOf m r := by
  unfold massOf timesCol
  simp only [h.comp, h.fkp, h.value, if_true, if_false]
  ring

theorem ReadsFkp.total {m : ConvObj.Mesh} {c : String} (h : ReadsFkp m c) (w : World n K) (t : ℚ) (L : Fin n → K) (q : Fin n) (rows rows' : List (List Raw))
    (hp : rows'.flatten.Perm (rows.flatten.map (timesCol c t))) : total w m L q rows' = algebraMap ℚ K t * Survey.total w m L q rows := by
  unfold Survey.total
  apply chosen_scaled m c t _ _ _ _ _ hp
  intro r
  rw [h.mass, map_mul, mul_assoc]
  rfl

theorem ReadsFkp.final {m : ConvObj.Mesh} {c : String} (h : ReadsFkp m c) (n1 n2 : ConvObj.Mesh) : ReadsFkp (final n1 n2 m) c := by
  unfold Survey.final ConvObj.clearMesh
  split_ifs
  · exact ⟨h.fkp, h.comp, h.nbar, h.value⟩
  · exact ⟨h.fkp, h.comp, h.nbar, h.value⟩

/-- C137: if the FKP weights of both species are multiplied by `t`, the norms are multiplied by `t ** 2`; the table - every multipole -, the edges, `alpha` and
the shot noise are the same. The norm of the randoms is positive: otherwise the spectrum is not normalized. -/
theorem fkp_rescaled (w : World n K) (leg : List ℚ → Nat → Fin n → Fin n → K) (hl : Legendre w leg) (mc mc' : Machine n) (c : String) (t : ℚ) (ht : t ≠ 0)
    (hc : RescaledBoth mc mc' c t) (h : ConvObj.Heap) (g : ConvObj.Args) (h1 h2 : ConvObj.Heap) (o o' : ConvObj.Obj) (hk : call w mc h g = (h1, .ok o))
    (hk' : call w mc' h g = (h2, .ok o')) (i j : Nat) (n1 n2 : ConvObj.Mesh) (hi : h[i]? = some n1) (hj : h[j]? = some n2) (hf : g.first = .mesh i)
    (hs : g.second = some (.mesh j) ∨ (g.second = none ∧ j = i)) (hn1 : ReadsFkp n1 c) (hn2 : ReadsFkp n2 c) (a : ℚ) (ha : o.attrs.alpha = some a)
    (rn : ℚ) (hrn0 : o.attrs.randomsNorm = some rn) (hpos : 0 < rn) :
    o'.attrs.alpha = some a ∧ o'.attrs.dataNorm = o.attrs.dataNorm.map (t ^ 2 * ·) ∧ o'.attrs.randomsNorm = some (t ^ 2 * rn) ∧
    o'.attrs.shotnoise = o.attrs.shotnoise ∧ o'.edges = o.edges ∧ o'.poles.data = o.poles.data := by
  have q1 := hn1.final n1 n2
  have q2 := hn2.final n1 n2
  obtain ⟨p1, p2⟩ := call_meshes w mc h g h1 o hk i j n1 n2 hi hj hf hs
  obtain ⟨p1', p2'⟩ := call_meshes w mc' h g h2 o' hk' i j n1 n2 hi hj hf hs
  obtain ⟨r1, r2, m1, m2, norm, ed, a1, a2, a3, a4, a5, a6, a7, a8, a9, ⟨cs, a10⟩, a11, a12, a13, a14⟩ := call_direct w mc leg hl h g h1 o hk
  obtain ⟨s1, s2, M1, M2, norm', ed', b1, b2, b3, b4, b5, b6, b7, b8, b9, ⟨cs', b10⟩, b11, b12, b13, b14⟩ := call_direct w mc' leg hl h g h2 o' hk'
  have e1 : r1 = i := a3 i hf
  have e2 : s1 = i := b3 i hf
  have e3 : r2 = j := by
    rcases hs with hs | ⟨hs, hj⟩
    · exact a4 j hs
    · rw [a5 hs, e1, hj]
  have e4 : s2 = j := by
    rcases hs with hs | ⟨hs, hj⟩
    · exact b4 j hs
    · rw [b5 hs, e2, hj]
  subst e1
  rw [e2] at b1
  rw [e3] at a2
  rw [e4] at b2
  rw [p1] at a1; rw [p2] at a2; rw [p1'] at b1; rw [p2'] at b2
  cases a1; cases a2; cases b1; cases b2
  generalize hm1 : final n1 n2 n1 = m1 at *
  generalize hm2 : final n1 n2 n2 = m2 at *
  rw [kBins_slabs w mc mc' hc.slabs, a10] at b10
  cases b10
  have hal : ∀ m b, ReadsFkp m c → Fkp.alpha (meshOf mc m).cat = some b → Fkp.alpha (meshOf mc' m).cat = some b := by
    intro m b hm hb
    have key : ∀ rows rows' : List (List Raw), rows'.flatten.Perm (rows.flatten.map (timesCol c t)) →
        Fkp.weightedTotal ⟨rows'.map (·.map (rowOf m)), true, true⟩ = Fkp.weightedTotal ⟨rows.map (·.map (rowOf m)), true, true⟩ := by
      intro rows rows' hp
      unfold Fkp.weightedTotal
      rw [Fkp.allSum_eq, Fkp.allSum_eq, sel_row m _ (rowOf m) (fun _ => rfl), sel_row m _ (rowOf m) (fun _ => rfl), List.map_map, List.map_map]
      rw [chosen_scaled m c t 1 _ _ rows rows' hp, one_mul]
      intro r
      show (timesCol c t r).num m.compWeight = 1 * r.num m.compWeight
      unfold timesCol
      simp only [hm.comp, if_false, one_mul]
    have hd : Fkp.weightedTotal (meshOf mc' m).cat.data = Fkp.weightedTotal (meshOf mc m).cat.data := key _ _ (hc.data _)
    have hr : Fkp.weightedTotal (meshOf mc' m).cat.randoms = Fkp.weightedTotal (meshOf mc m).cat.randoms := key _ _ (hc.randoms _)
    unfold Fkp.alpha at hb ⊢
    rw [hd, hr]
    exact hb
  have ha1 : Fkp.alpha (meshOf mc m1).cat = some a := by rw [← a12]; exact ha
  have ha2 : Fkp.alpha (meshOf mc m2).cat = some a := by
    have hv : ConvObj.validCross m1 m2 = true := by
      apply (ConvObj.valid_iff m1 m2).mpr
      refine ⟨a7, a8, a9, ?_⟩
      obtain ⟨t1, t2, N1, N2, _, _, _, u1, u2, u3, u4, u5, _, _, _, _, _, _, _, u13, _⟩ := ConvObj.result_spec _ (consistent w mc) _ _ _ _ hk
      have v1 : t1 = r1 := u3 r1 (by dsimp only; rw [hf]; rfl)
      have v2 : t2 = j := by
        rcases hs with hs | ⟨hs, hj⟩
        · exact u4 j (by dsimp only; rw [hs]; rfl)
        · rw [u5 (by dsimp only; rw [hs]; rfl), v1, hj]
      rw [v1, p1] at u1
      rw [v2, p2] at u2
      cases u1
      cases u2
      exact u13
    have := (same_alpha mc m1 m2 hv []).1
    show (metaOf mc m2 []).alpha = some a
    rw [← this]; exact ha1
  obtain ⟨c1, c2, c3⟩ := a14 a a (.inl ha1) (.inl ha2)
  obtain ⟨d1, d2, d3⟩ := b14 a a (.inl (hal m1 a q1 ha1)) (.inl (hal m2 a q2 ha2))
  have hno : ∀ rows rows' : List (List Raw), rows'.flatten.Perm (rows.flatten.map (timesCol c t)) →
      ((chosen m1 rows').map fun r => r.num m2.nbar * r.num m1.compWeight * r.num m1.fkpWeight * r.num m2.fkpWeight).sum =
        t ^ 2 * ((chosen m1 rows).map fun r => r.num m2.nbar * r.num m1.compWeight * r.num m1.fkpWeight * r.num m2.fkpWeight).sum := by
    intro rows rows' hp
    apply chosen_scaled m1 c t (t ^ 2) _ _ _ _ hp
    intro r
    unfold timesCol
    simp only [q1.comp, q1.fkp, q2.fkp, q2.nbar, if_true, if_false]
    ring
  have hdn : o'.attrs.dataNorm = o.attrs.dataNorm.map (t ^ 2 * ·) := by
    rw [c1, d1, hno _ _ (hc.data _)]
    rfl
  have hrn : o'.attrs.randomsNorm = some (t ^ 2 * rn) := by
    rw [c2] at hrn0
    rw [d2, hno _ _ (hc.randoms _), ← Option.some.inj hrn0]
    congr 1
    ring
  have ht2 : 0 < t ^ 2 := by positivity
  have hnorm : norm' = norm / t ^ 2 := by
    rw [hrn] at b13
    rw [hrn0] at a13
    unfold Fkp.normFactor at a13 b13
    simp only [gt_iff_lt, if_pos hpos, if_pos (mul_pos ht2 hpos)] at a13 b13
    rw [hdn, c1] at b13
    rw [c1] at a13
    simp only [Option.map_some] at a13 b13
    split_ifs at a13
    split_ifs at b13
    cases a13; cases b13
    field_simp
  refine ⟨by rw [b12]; exact hal m1 a q1 ha1, hdn, hrn, ?_, by rw [a6, b6], ?_⟩
  · rw [a11, b11, hrn, hrn0, ha, b12, hal m1 a q1 ha1]
    rw [shot_rows _ _ _ _ _ hpos.ne', shot_rows _ _ _ _ _ (mul_pos ht2 hpos).ne']
    have key : ∀ rows rows' : List (List Raw), rows'.flatten.Perm (rows.flatten.map (timesCol c t)) →
        ((chosen m1 rows').map fun r => r.num m1.compWeight ^ 2 * r.num m1.fkpWeight * r.num m2.fkpWeight).sum =
          t ^ 2 * ((chosen m1 rows).map fun r => r.num m1.compWeight ^ 2 * r.num m1.fkpWeight * r.num m2.fkpWeight).sum := by
      intro rows rows' hp
      apply chosen_scaled m1 c t (t ^ 2) _ _ _ _ hp
      intro r
      unfold timesCol
      simp only [q1.comp, q1.fkp, q2.fkp, if_true, if_false]
      ring
    rw [key _ _ (hc.data _), key _ _ (hc.randoms _)]
    congr 1
    have := hpos.ne'
    field_simp
  rw [c3, d3]
  have hamp : ∀ (m : ConvObj.Mesh), ReadsFkp m c → ∀ V L q, amplitude w (mc'.cats m.source) m V a L q =
      algebraMap ℚ K t * amplitude w (mc.cats m.source) m V a L q := by
    intro m hm V L q
    unfold amplitude
    rw [hm.total w t L q _ _ (hc.randoms _), hm.total w t L q _ _ (hc.data _)]
    ring
  have hpow : ∀ ell, powerAt w mc' leg m1 m2 a a norm' ell = powerAt w mc leg m1 m2 a a norm ell := by
    intro ell
    funext q
    unfold powerAt
    have hn : algebraMap ℚ K norm = algebraMap ℚ K norm' * algebraMap ℚ K t * algebraMap ℚ K t := by
      rw [← map_mul, ← map_mul, hnorm]
      congr 1
      field_simp
    rw [hamp m1 q1, hamp m2 q2, hn]
    simp only [map_mul, conj_rat]
    ring
  unfold averages
  simp only [hpow, project_slabs w mc mc' hc.slabs]

/-- The case with FKP weights of 3 instead of 1: the norm is 9 times as large. -/
def machF : Machine 2 := { machA with cats := fun i => { machA.cats i with
  data := (machA.cats i).data.map (·.map (timesCol "FKPWeight" 3)), randoms := (machA.cats i).randoms.map (·.map (timesCol "FKPWeight" 3)) } }

theorem fkp_case : RescaledBoth machA machF "FKPWeight" 3 ∧ ReadsFkp meshA "FKPWeight" ∧
    (call world machF [meshA] gM).2.toOption.map view = some ([("k", [.fin 0, .fin 1]), ("power_0.real", [.fin 0, .fin 16]),
      ("power_0.imag", [.fin 0, .fin 0]), ("modes", [.fin 1, .fin 1])], some [0, 1, 2], some (1 / 2), some 9, some (3 / 4), [3, 1, 1], [0, 0, 0]) := by
  refine ⟨⟨fun _ => ?_, fun _ => ?_, rfl⟩, ⟨by decide, by decide, by decide, by decide⟩, by decide +kernel⟩
  · exact List.Perm.of_eq (List.map_flatten).symm
  · exact List.Perm.of_eq (List.map_flatten).symm

/-- What a mesh reads from the columns: the number density, and no other column, is in the column `c`. -/
structure ReadsNbar (m : ConvObj.Mesh) (c : String) : Prop where
  nbar : m.nbar = c
  comp : m.compWeight ≠ c
  fkp : m.fkpWeight ≠ c
  value : "Value" ≠ c

theorem ReadsNbar.total {m : ConvObj.Mesh} {c : String} (h : ReadsNbar m c) (w : World n K) (t : ℚ) (L : Fin n → K) (q : Fin n) (rows rows' : List (List Raw))
    (hp : rows'.flatten.Perm (rows.flatten.map (timesCol c t))) : total w m L q rows' = Survey.total w m L q rows := by
  unfold Survey.total
  rw [chosen_scaled m c t 1 _ _ _ _ hp, one_mul]
  intro r
  have : massOf m (timesCol c t r) = massOf m r := by
    unfold massOf timesCol
    simp only [h.comp, h.fkp, h.value, if_false]
  rw [this, one_mul]
  rfl

theorem ReadsNbar.final {m : ConvObj.Mesh} {c : String} (h : ReadsNbar m c) (n1 n2 : ConvObj.Mesh) : ReadsNbar (final n1 n2 m) c := by
  unfold Survey.final ConvObj.clearMesh
  split_ifs
  · exact ⟨h.nbar, h.comp, h.fkp, h.value⟩
  · exact ⟨h.nbar, h.comp, h.fkp, h.value⟩

/-- The averages of multiples. -/
theorem average_times (w : World n K) (mc : Machine n) (box : List ℚ) (nmesh : List Nat) (ed : List ℚ) (f g : Fin n → K) (s : ℚ)
    (hr : ∀ k, w.re (g k) = s * w.re (f k)) (hi : ∀ k, w.im (g k) = s * w.im (f k)) (i : Nat) :
    (project w mc box nmesh ed g i).2.2.1 = ((project w mc box nmesh ed f i).2.2.1).map (s * ·) ∧
      (project w mc box nmesh ed g i).2.2.2.1 = ((project w mc box nmesh ed f i).2.2.2.1).map (s * ·) := by
  have h0 : (Project.allPoles []).headD 0 = 0 := rfl
  unfold project Project.result2d
  dsimp only
  rw [h0]
  have hN : ∀ q, Project.binSum (ed.map (· ^ 2)) [-1, 1] (fun m => (m.w : ℚ)) (modesOf w mc box nmesh g) q =
      1 * Project.binSum (ed.map (· ^ 2)) [-1, 1] (fun m => (m.w : ℚ)) (modesOf w mc box nmesh f) q := by
    intro q; rw [binSum_modes, binSum_modes, one_mul]
  have hR : ∀ q, Project.binSum (ed.map (· ^ 2)) [-1, 1] (fun m => (Project.poleTerm w.hermitian 0 m).re) (modesOf w mc box nmesh g) q =
      s * Project.binSum (ed.map (· ^ 2)) [-1, 1] (fun m => (Project.poleTerm w.hermitian 0 m).re) (modesOf w mc box nmesh f) q := by
    intro q
    rw [binSum_modes, binSum_modes]
    apply sum_scaled
    intro k
    rw [term_re, term_re]
    dsimp only
    rw [hr k]; ring
  have hI : ∀ q, Project.binSum (ed.map (· ^ 2)) [-1, 1] (fun m => (Project.poleTerm w.hermitian 0 m).im) (modesOf w mc box nmesh g) q =
      s * Project.binSum (ed.map (· ^ 2)) [-1, 1] (fun m => (Project.poleTerm w.hermitian 0 m).im) (modesOf w mc box nmesh f) q := by
    intro q
    rw [binSum_modes, binSum_modes]
    apply sum_scaled
    intro k
    rw [term_im, term_im]
    dsimp only
    rw [hi k]; ring
  rw [visible_map _ _ _ _ hN, visible_map _ _ _ _ hR, visible_map _ _ _ _ hI, one_mul]
  unfold Project.ratio
  constructor
  · split
    · rfl
    · simp only [Option.map_some, Option.some.injEq]; ring
  · split
    · rfl
    · simp only [Option.map_some, Option.some.injEq]; ring

/-- The averages of a function that is divided by `t`. -/
theorem averages_over (w : World n K) (mc : Machine n) (m : ConvObj.Mesh) (ed : List ℚ) (f g : Fin n → K) (s : ℚ) (h : ∀ k, g k = algebraMap ℚ K s * f k) :
    averages w mc m ed g = (averages w mc m ed f).map fun x => (x.1.map (s * ·), x.2.map (s * ·)) := by
  have e : ∀ k, g k = s • f k := fun k => by rw [h k, Algebra.smul_def]
  unfold averages
  rw [List.map_map]
  apply List.map_congr_left
  intro i _
  have := average_times w mc m.pmBox m.nmesh ed f g s (fun k => by rw [e k, map_smul, smul_eq_mul]) (fun k => by rw [e k, map_smul, smul_eq_mul]) i
  exact Prod.ext this.1 this.2

/-- C137: if the number densities are multiplied by `t > 0`, the norms are multiplied by `t`; the multipoles and the shot noise are divided by `t`; `alpha`, the
edges, the wavenumbers and the numbers of modes are the same. The norm of the randoms is positive: otherwise the spectrum is not normalized. -/
theorem nbar_rescaled (w : World n K) (leg : List ℚ → Nat → Fin n → Fin n → K) (hl : Legendre w leg) (mc mc' : Machine n) (c : String) (t : ℚ) (ht : 0 < t)
    (hc : RescaledBoth mc mc' c t) (h : ConvObj.Heap) (g : ConvObj.Args) (h1 h2 : ConvObj.Heap) (o o' : ConvObj.Obj) (hk : call w mc h g = (h1, .ok o))
    (hk' : call w mc' h g = (h2, .ok o')) (i j : Nat) (n1 n2 : ConvObj.Mesh) (hi : h[i]? = some n1) (hj : h[j]? = some n2) (hf : g.first = .mesh i)
    (hs : g.second = some (.mesh j) ∨ (g.second = none ∧ j = i)) (hn1 : ReadsNbar n1 c) (hn2 : ReadsNbar n2 c) (a : ℚ) (ha : o.attrs.alpha = some a)
    (rn : ℚ) (hrn0 : o.attrs.randomsNorm = some rn) (hpos : 0 < rn) :
    o'.attrs.alpha = some a ∧ o'.attrs.dataNorm = o.attrs.dataNorm.map (t * ·) ∧ o'.attrs.randomsNorm = some (t * rn) ∧
    o'.attrs.shotnoise = o.attrs.shotnoise.map (· / t) ∧ o'.edges = o.edges ∧
    ∃ (kcol mcol : Binned.Col) (P : Nat → List (Option ℚ × Option ℚ)),
      o.poles.data = [kcol] ++ (g.poles.list.insertionSort (· ≤ ·)).flatMap (fun ell => cols ell (P ell)) ++ [mcol] ∧
      o'.poles.data = [kcol] ++ (g.poles.list.insertionSort (· ≤ ·)).flatMap
        (fun ell => cols ell ((P ell).map fun x => (x.1.map (1 / t * ·), x.2.map (1 / t * ·)))) ++ [mcol] := by
  have q1 := hn1.final n1 n2
  have q2 := hn2.final n1 n2
  obtain ⟨p1, p2⟩ := call_meshes w mc h g h1 o hk i j n1 n2 hi hj hf hs
  obtain ⟨p1', p2'⟩ := call_meshes w mc' h g h2 o' hk' i j n1 n2 hi hj hf hs
  obtain ⟨r1, r2, m1, m2, norm, ed, a1, a2, a3, a4, a5, a6, a7, a8, a9, ⟨cs, a10⟩, a11, a12, a13, a14⟩ := call_direct w mc leg hl h g h1 o hk
  obtain ⟨s1, s2, M1, M2, norm', ed', b1, b2, b3, b4, b5, b6, b7, b8, b9, ⟨cs', b10⟩, b11, b12, b13, b14⟩ := call_direct w mc' leg hl h g h2 o' hk'
  have e1 : r1 = i := a3 i hf
  have e2 : s1 = i := b3 i hf
  have e3 : r2 = j := by
    rcases hs with hs | ⟨hs, hj⟩
    · exact a4 j hs
    · rw [a5 hs, e1, hj]
  have e4 : s2 = j := by
    rcases hs with hs | ⟨hs, hj⟩
    · exact b4 j hs
    · rw [b5 hs, e2, hj]
  subst e1
  rw [e2] at b1
  rw [e3] at a2
  rw [e4] at b2
  rw [p1] at a1; rw [p2] at a2; rw [p1'] at b1; rw [p2'] at b2
  cases a1; cases a2; cases b1; cases b2
  generalize hm1 : final n1 n2 n1 = m1 at *
  generalize hm2 : final n1 n2 n2 = m2 at *
  rw [kBins_slabs w mc mc' hc.slabs, a10] at b10
  cases b10
  have hal : ∀ m b, ReadsNbar m c → Fkp.alpha (meshOf mc m).cat = some b → Fkp.alpha (meshOf mc' m).cat = some b := by
    intro m b hm hb
    have key : ∀ rows rows' : List (List Raw), rows'.flatten.Perm (rows.flatten.map (timesCol c t)) →
        Fkp.weightedTotal ⟨rows'.map (·.map (rowOf m)), true, true⟩ = Fkp.weightedTotal ⟨rows.map (·.map (rowOf m)), true, true⟩ := by
      intro rows rows' hp
      unfold Fkp.weightedTotal
      rw [Fkp.allSum_eq, Fkp.allSum_eq, sel_row m _ (rowOf m) (fun _ => rfl), sel_row m _ (rowOf m) (fun _ => rfl), List.map_map, List.map_map]
      rw [chosen_scaled m c t 1 _ _ rows rows' hp, one_mul]
      intro r
      show (timesCol c t r).num m.compWeight = 1 * r.num m.compWeight
      unfold timesCol
      simp only [hm.comp, if_false, one_mul]
    have hd : Fkp.weightedTotal (meshOf mc' m).cat.data = Fkp.weightedTotal (meshOf mc m).cat.data := key _ _ (hc.data _)
    have hr : Fkp.weightedTotal (meshOf mc' m).cat.randoms = Fkp.weightedTotal (meshOf mc m).cat.randoms := key _ _ (hc.randoms _)
    unfold Fkp.alpha at hb ⊢
    rw [hd, hr]
    exact hb
  have ha1 : Fkp.alpha (meshOf mc m1).cat = some a := by rw [← a12]; exact ha
  have ha2 : Fkp.alpha (meshOf mc m2).cat = some a := by
    have hv : ConvObj.validCross m1 m2 = true := by
      apply (ConvObj.valid_iff m1 m2).mpr
      refine ⟨a7, a8, a9, ?_⟩
      obtain ⟨t1, t2, N1, N2, _, _, _, u1, u2, u3, u4, u5, _, _, _, _, _, _, _, u13, _⟩ := ConvObj.result_spec _ (consistent w mc) _ _ _ _ hk
      have v1 : t1 = r1 := u3 r1 (by dsimp only; rw [hf]; rfl)
      have v2 : t2 = j := by
        rcases hs with hs | ⟨hs, hj⟩
        · exact u4 j (by dsimp only; rw [hs]; rfl)
        · rw [u5 (by dsimp only; rw [hs]; rfl), v1, hj]
      rw [v1, p1] at u1
      rw [v2, p2] at u2
      cases u1
      cases u2
      exact u13
    have := (same_alpha mc m1 m2 hv []).1
    show (metaOf mc m2 []).alpha = some a
    rw [← this]; exact ha1
  obtain ⟨c1, c2, c3⟩ := a14 a a (.inl ha1) (.inl ha2)
  obtain ⟨d1, d2, d3⟩ := b14 a a (.inl (hal m1 a q1 ha1)) (.inl (hal m2 a q2 ha2))
  have hno : ∀ rows rows' : List (List Raw), rows'.flatten.Perm (rows.flatten.map (timesCol c t)) →
      ((chosen m1 rows').map fun r => r.num m2.nbar * r.num m1.compWeight * r.num m1.fkpWeight * r.num m2.fkpWeight).sum =
        t * ((chosen m1 rows).map fun r => r.num m2.nbar * r.num m1.compWeight * r.num m1.fkpWeight * r.num m2.fkpWeight).sum := by
    intro rows rows' hp
    apply chosen_scaled m1 c t t _ _ _ _ hp
    intro r
    unfold timesCol
    simp only [q1.comp, q1.fkp, q2.fkp, q2.nbar, if_true, if_false]
    ring
  have hdn : o'.attrs.dataNorm = o.attrs.dataNorm.map (t * ·) := by
    rw [c1, d1, hno _ _ (hc.data _)]
    rfl
  have hrn : o'.attrs.randomsNorm = some (t * rn) := by
    rw [c2] at hrn0
    rw [d2, hno _ _ (hc.randoms _), ← Option.some.inj hrn0]
    congr 1
    ring
  have ht2 : 0 < t := ht
  have hnorm : norm' = norm / t := by
    rw [hrn] at b13
    rw [hrn0] at a13
    unfold Fkp.normFactor at a13 b13
    simp only [gt_iff_lt, if_pos hpos, if_pos (mul_pos ht2 hpos)] at a13 b13
    rw [hdn, c1] at b13
    rw [c1] at a13
    simp only [Option.map_some] at a13 b13
    split_ifs at a13
    split_ifs at b13
    cases a13; cases b13
    field_simp
  refine ⟨by rw [b12]; exact hal m1 a q1 ha1, hdn, hrn, ?_, by rw [a6, b6], ?_⟩
  · rw [a11, b11, hrn, hrn0, ha, b12, hal m1 a q1 ha1]
    rw [shot_rows _ _ _ _ _ hpos.ne', shot_rows _ _ _ _ _ (mul_pos ht2 hpos).ne']
    have key : ∀ rows rows' : List (List Raw), rows'.flatten.Perm (rows.flatten.map (timesCol c t)) →
        ((chosen m1 rows').map fun r => r.num m1.compWeight ^ 2 * r.num m1.fkpWeight * r.num m2.fkpWeight).sum =
          ((chosen m1 rows).map fun r => r.num m1.compWeight ^ 2 * r.num m1.fkpWeight * r.num m2.fkpWeight).sum := by
      intro rows rows' hp
      rw [chosen_scaled m1 c t 1 _ _ _ _ hp, one_mul]
      intro r
      unfold timesCol
      simp only [q1.comp, q1.fkp, q2.fkp, if_false, one_mul]
    rw [key _ _ (hc.data _), key _ _ (hc.randoms _)]
    simp only [Option.map_some, Option.some.injEq]
    have := hpos.ne'
    field_simp
  have hamp : ∀ (m : ConvObj.Mesh), ReadsNbar m c → ∀ V L q, amplitude w (mc'.cats m.source) m V a L q = amplitude w (mc.cats m.source) m V a L q := by
    intro m hm V L q
    unfold amplitude
    rw [hm.total w t L q _ _ (hc.randoms _), hm.total w t L q _ _ (hc.data _)]
  have hpow : ∀ ell q, powerAt w mc' leg m1 m2 a a norm' ell q = algebraMap ℚ K (1 / t) * powerAt w mc leg m1 m2 a a norm ell q := by
    intro ell q
    unfold powerAt
    have hn : algebraMap ℚ K norm' = algebraMap ℚ K (1 / t) * algebraMap ℚ K norm := by
      rw [← map_mul, hnorm]
      congr 1
      ring
    rw [hamp m1 q1, hamp m2 q2, hn]
    ring
  refine ⟨_, _, fun ell => averages w mc m1 ed (powerAt w mc leg m1 m2 a a norm ell), c3, ?_⟩
  rw [d3]
  have hav : ∀ ell, averages w mc' m1 ed (powerAt w mc' leg m1 m2 a a norm' ell) =
      (averages w mc m1 ed (powerAt w mc leg m1 m2 a a norm ell)).map fun x => (x.1.map (1 / t * ·), x.2.map (1 / t * ·)) := by
    intro ell
    rw [← averages_over w mc m1 ed _ _ (1 / t) (hpow ell)]
    unfold averages
    simp only [project_slabs w mc mc' hc.slabs]
  simp only [hav, project_slabs w mc mc' hc.slabs]

/-- The case with the densities multiplied by 4. -/
def machN : Machine 2 := { machA with cats := fun i => { machA.cats i with
  data := (machA.cats i).data.map (·.map (timesCol "NZ" 4)), randoms := (machA.cats i).randoms.map (·.map (timesCol "NZ" 4)) } }

theorem nbar_case : RescaledBoth machA machN "NZ" 4 ∧ ReadsNbar meshA "NZ" ∧
    (call world machN [meshA] gM).2.toOption.map view = some ([("k", [.fin 0, .fin 1]), ("power_0.real", [.fin 0, .fin 4]),
      ("power_0.imag", [.fin 0, .fin 0]), ("modes", [.fin 1, .fin 1])], some [0, 1, 2], some (1 / 2), some 4, some (3 / 16), [3, 1, 1], [0, 0, 0]) := by
  refine ⟨⟨fun _ => ?_, fun _ => ?_, rfl⟩, ⟨by decide, by decide, by decide, by decide⟩, by decide +kernel⟩
  · exact List.Perm.of_eq (List.map_flatten).symm
  · exact List.Perm.of_eq (List.map_flatten).symm

end NBK.Survey
