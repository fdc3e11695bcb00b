import Verif.Survey.DirectProps
import Verif.ConvObj.StateProps

/-!
# `ConvolvedFFTPower` of catalogs (C137): what the result does and does not depend on
-/
set_option linter.unusedSimpArgs false
namespace NBK.Survey
open NBK

variable {n : Nat} {K : Type} [CommRing K] [Algebra ℚ K]

/-- C137: the check that the two meshes have the same `alpha` never fails: meshes that may be correlated have the same one. -/
theorem same_alpha (mc : Machine n) (m1 m2 : ConvObj.Mesh) (hv : ConvObj.validCross m1 m2 = true) (nmesh : List Nat) :
    (metaOf mc m1 nmesh).alpha = (metaOf mc m2 nmesh).alpha ∧ ConvObj.sameAlpha (metaOf mc m1 nmesh).alpha (metaOf mc m2 nmesh).alpha = true ∧
    ((metaOf mc m1 nmesh).nan = (metaOf mc m2 nmesh).nan) := by
  obtain ⟨h1, h2, h3, h4⟩ := (ConvObj.valid_iff m1 m2).mp hv
  have key : ∀ rows : List (List Raw), Fkp.weightedTotal ⟨rows.map (·.map (rowOf m1)), true, true⟩ =
      Fkp.weightedTotal ⟨rows.map (·.map (rowOf m2)), true, true⟩ := by
    intro rows
    unfold Fkp.weightedTotal
    rw [Fkp.allSum_eq, Fkp.allSum_eq, sel_row m1 rows (rowOf m1) (fun _ => rfl), sel_row m2 rows (rowOf m2) (fun _ => rfl), List.map_map, List.map_map]
    have : chosen m1 rows = chosen m2 rows := by unfold chosen; rw [h2]
    rw [this]
    congr 1
    apply List.map_congr_left
    intro r _
    show r.num m1.compWeight = r.num m2.compWeight
    rw [h3]
  have ha : (metaOf mc m1 nmesh).alpha = (metaOf mc m2 nmesh).alpha := by
    show Fkp.alpha (catOf (mc.cats m1.source) (rowOf m1)) = Fkp.alpha (catOf (mc.cats m2.source) (rowOf m2))
    unfold Fkp.alpha catOf
    dsimp only
    rw [key, key, h1]
  refine ⟨ha, ?_, ?_⟩
  · rw [ha]
    cases (metaOf mc m2 nmesh).alpha with
    | none => rfl
    | some a =>
      unfold ConvObj.sameAlpha Fkp.allclose
      simp only [sub_self, abs_zero, decide_eq_true_eq]
      positivity
  · show decide (_ ∧ _) = decide (_ ∧ _)
    unfold meshOf catOf
    dsimp only
    rw [key, key, h1]

/-- The mesh `m` as a run with the meshes `m1` and `m2` leaves it. -/
def final (m1 m2 m : ConvObj.Mesh) : ConvObj.Mesh :=
  ConvObj.clearMesh (if m1.boxSize = m2.boxSize then m else ConvObj.recenter (ConvObj.jointBox m1 m2) m)

/-- The meshes after a run that ends well. -/
theorem call_meshes (w : World n K) (mc : Machine n) (h : ConvObj.Heap) (g : ConvObj.Args) (h' : ConvObj.Heap) (o : ConvObj.Obj)
    (hk : call w mc h g = (h', .ok o)) (i j : Nat) (m1 m2 : ConvObj.Mesh) (h1 : h[i]? = some m1) (h2 : h[j]? = some m2) (hf : g.first = .mesh i)
    (hs : g.second = some (.mesh j) ∨ (g.second = none ∧ j = i)) : h'[i]? = some (final m1 m2 m1) ∧ h'[j]? = some (final m1 m2 m2) := by
  unfold call at hk
  generalize hg : ({ g with first := located mc g.first, second := g.second.map (located mc) } : ConvObj.Args) = g' at hk
  have hf' : g'.first = .mesh i := by rw [← hg]; dsimp only; rw [hf]; rfl
  have hs' : g'.second = some (.mesh j) ∨ (g'.second = none ∧ j = i) := by
    rw [← hg]; dsimp only
    rcases hs with hs | ⟨hs, hj⟩
    · left; rw [hs]; rfl
    · right; rw [hs]; exact ⟨rfl, hj⟩
  rcases ConvObj.new_cases (envOf w mc) h g' with ⟨h2', x, he, hp⟩ | ⟨ha, hb, r1, r2, n1, n2, hc, hcs, hp, hm1, hm2, hv, hco, hd, he⟩
  · rw [he] at hk; cases hk
  obtain ⟨a1, a2, a3⟩ := ConvObj.cast_prefix _ _ _ _ _ hc
  obtain ⟨b1, b2, b3⟩ := ConvObj.second_prefix _ _ _ _ a1 _ _ hcs
  have e1 : r1 = i := by
    rcases a3 with ⟨k, hk1, rfl, _⟩ | ⟨hk1, _⟩
    · rw [hf'] at hk1; cases hk1; rfl
    · exact absurd hf' (hk1 i)
  have e2 : r2 = j := by
    rcases b3 with ⟨q1, q2, q3⟩ | ⟨k, q1, q2, q3⟩ | ⟨q1, q2, q3⟩
    · rcases hs' with hs' | ⟨hs', hj⟩
      · rw [hs'] at q1; cases q1
      · rw [q2, e1, hj]
    · rcases hs' with hs' | ⟨hs', hj⟩
      · rw [hs'] at q1; cases q1; exact q2
      · rw [hs'] at q1; cases q1
    · rcases hs' with hs' | ⟨hs', hj⟩
      · exact absurd hs' (q1 j)
      · exact absurd hs' q2
  subst e1 e2
  rw [hp _ _ h1] at hm1
  rw [hp _ _ h2] at hm2
  cases hm1
  cases hm2
  have g1 := hp _ _ h1
  have g2 := hp _ _ h2
  rw [he, ConvObj.build_eq _ _ _ _ _ _ _ g1 g2] at hk
  dsimp only at hk
  split at hk
  · cases hk
  simp only [Prod.mk.injEq] at hk
  rw [← hk.1, ConvObj.clear_get, ConvObj.clear_get, if_pos (.inl rfl), if_pos (.inr rfl), ConvObj.join_get, ConvObj.join_get, g1, g2]
  unfold final
  by_cases hbx : m1.boxSize = m2.boxSize
  · simp [hbx]
  · simp [hbx]

/-- The amplitudes with `k` copies of the randoms. -/
theorem total_replicate (w : World n K) (m : ConvObj.Mesh) (L : Fin n → K) (q : Fin n) (rows rows' : List (List Raw)) (k : Nat)
    (h : rows'.flatten.Perm (List.replicate k rows.flatten).flatten) : total w m L q rows' = k * total w m L q rows := by
  unfold total chosen
  rw [((h.filter _).map _).sum_eq]
  clear h
  induction k with
  | zero => simp
  | succ k ih =>
    simp only [List.replicate_succ, List.flatten_cons, List.filter_append, List.map_append, List.sum_append, ih]
    push_cast; ring

theorem weighted_replicate (m : ConvObj.Mesh) (f : Raw → Fkp.Row) (hf : ∀ r, (f r).sel = r.flag m.selection) (g : Fkp.Row → ℚ) (rows rows' : List (List Raw)) (k : Nat)
    (h : rows'.flatten.Perm (List.replicate k rows.flatten).flatten) :
    Fkp.allSum ⟨rows'.map (·.map f), true, true⟩ g = k * Fkp.allSum ⟨rows.map (·.map f), true, true⟩ g := by
  rw [Fkp.allSum_eq, Fkp.allSum_eq, sel_row m _ f hf, sel_row m _ f hf, List.map_map, List.map_map]
  unfold chosen
  rw [((h.filter _).map _).sum_eq]
  clear h
  induction k with
  | zero => simp
  | succ k ih =>
    simp only [List.replicate_succ, List.flatten_cons, List.filter_append, List.map_append, List.sum_append, ih]
    push_cast; ring

/-- The catalogs with `k` copies of the randoms, distributed in any way. -/
structure Copies (mc mc' : Machine n) (k : Nat) : Prop where
  data : ∀ i, (mc.cats i).data.flatten.Perm (mc'.cats i).data.flatten
  randoms : ∀ i, (mc'.cats i).randoms.flatten.Perm (List.replicate k (mc.cats i).randoms.flatten).flatten
  slabs : mc'.slabs = mc.slabs

theorem project_slabs (w : World n K) (mc mc' : Machine n) (h : mc'.slabs = mc.slabs) (box : List ℚ) (nmesh : List Nat) (ed : List ℚ) (f : Fin n → K) (i : Nat) :
    project w mc' box nmesh ed f i = project w mc box nmesh ed f i := by
  unfold project modesOf
  rw [h]

theorem kBins_slabs (w : World n K) (mc mc' : Machine n) (h : mc'.slabs = mc.slabs) (m : ConvObj.Mesh) (a : ConvObj.Attrs) :
    ConvObj.kBins (envOf w mc') m a = ConvObj.kBins (envOf w mc) m a := by
  unfold ConvObj.kBins envOf modesOf
  dsimp only
  rw [h]

/-- C137: with `k` copies of the randoms, on any ranks, the table - every multipole -, the edges and the norms are the same, and `alpha` is divided by `k`. -/
theorem randoms_replicated (w : World n K) (leg : List ℚ → Nat → Fin n → Fin n → K) (hl : Legendre w leg) (mc mc' : Machine n) (k : Nat) (hk0 : 0 < k)
    (hc : Copies mc mc' k) (h : ConvObj.Heap) (g : ConvObj.Args) (h1 h2 : ConvObj.Heap) (o o' : ConvObj.Obj) (hk : call w mc h g = (h1, .ok o))
    (hk' : call w mc' h g = (h2, .ok o')) (i j : Nat) (n1 n2 : ConvObj.Mesh) (hi : h[i]? = some n1) (hj : h[j]? = some n2) (hf : g.first = .mesh i)
    (hs : g.second = some (.mesh j) ∨ (g.second = none ∧ j = i)) (a : ℚ) (ha : o.attrs.alpha = some a) :
    o'.attrs.alpha = some (a / k) ∧ o'.attrs.dataNorm = o.attrs.dataNorm ∧ o'.attrs.randomsNorm = o.attrs.randomsNorm ∧
    o'.edges = o.edges ∧ o'.poles.data = o.poles.data := by
  have hkq : (k : ℚ) ≠ 0 := Nat.cast_ne_zero.mpr (by omega)
  obtain ⟨p1, p2⟩ := call_meshes w mc h g h1 o hk i j n1 n2 hi hj hf hs
  obtain ⟨p1', p2'⟩ := call_meshes w mc' h g h2 o' hk' i j n1 n2 hi hj hf hs
  obtain ⟨r1, r2, m1, m2, norm, ed, a1, a2, a3, a4, a5, a6, a7, a8, a9, ⟨cs, a10⟩, a11, a12, a13, a14⟩ := call_direct w mc leg hl h g h1 o hk
  obtain ⟨s1, s2, M1, M2, norm', ed', b1, b2, b3, b4, b5, b6, b7, b8, b9, ⟨cs', b10⟩, b11, b12, b13, b14⟩ := call_direct w mc' leg hl h g h2 o' hk'
  have e1 : r1 = i := a3 i hf
  have e2 : s1 = i := b3 i hf
  have e3 : r2 = j := by
    rcases hs with hs | ⟨hs, hj⟩
    · exact a4 j hs
    · rw [a5 hs, e1, hj]
  have e4 : s2 = j := by
    rcases hs with hs | ⟨hs, hj⟩
    · exact b4 j hs
    · rw [b5 hs, e2, hj]
  subst e1
  rw [e2] at b1
  rw [e3] at a2
  rw [e4] at b2
  rw [p1] at a1; rw [p2] at a2; rw [p1'] at b1; rw [p2'] at b2
  cases a1; cases a2; cases b1; cases b2
  generalize hm1 : final n1 n2 n1 = m1 at *
  generalize hm2 : final n1 n2 n2 = m2 at *
  rw [kBins_slabs w mc mc' hc.slabs, a10] at b10
  cases b10
  have hal : ∀ m b, Fkp.alpha (meshOf mc m).cat = some b → Fkp.alpha (meshOf mc' m).cat = some (b / k) := by
    intro m b hb
    have hd : Fkp.weightedTotal (meshOf mc' m).cat.data = Fkp.weightedTotal (meshOf mc m).cat.data := by
      unfold Fkp.weightedTotal meshOf catOf
      dsimp only
      rw [Fkp.allSum_eq, Fkp.allSum_eq, all_map, all_map]
      exact ((((hc.data _).map _).filter _).map _).sum_eq.symm
    have hr : Fkp.weightedTotal (meshOf mc' m).cat.randoms = k * Fkp.weightedTotal (meshOf mc m).cat.randoms :=
      weighted_replicate m (rowOf m) (fun _ => rfl) _ _ _ k (hc.randoms _)
    unfold Fkp.alpha at hb ⊢
    by_cases h0 : Fkp.weightedTotal (meshOf mc m).cat.randoms = 0
    · rw [if_pos h0] at hb; cases hb
    · rw [if_neg h0] at hb
      cases hb
      rw [hd, hr, if_neg (mul_ne_zero hkq h0)]
      congr 1
      field_simp
  have ha1 : Fkp.alpha (meshOf mc m1).cat = some a := by rw [← a12]; exact ha
  have ha2 : Fkp.alpha (meshOf mc m2).cat = some a := by
    have hv : ConvObj.validCross m1 m2 = true := by
      apply (ConvObj.valid_iff m1 m2).mpr
      refine ⟨a7, a8, a9, ?_⟩
      obtain ⟨t1, t2, N1, N2, _, _, _, u1, u2, u3, u4, u5, _, _, _, _, _, _, _, u13, _⟩ := ConvObj.result_spec _ (consistent w mc) _ _ _ _ hk
      have v1 : t1 = r1 := u3 r1 (by dsimp only; rw [hf]; rfl)
      have v2 : t2 = j := by
        rcases hs with hs | ⟨hs, hj⟩
        · exact u4 j (by dsimp only; rw [hs]; rfl)
        · rw [u5 (by dsimp only; rw [hs]; rfl), v1, hj]
      rw [v1, p1] at u1
      rw [v2, p2] at u2
      cases u1
      cases u2
      exact u13
    have := (same_alpha mc m1 m2 hv []).1
    show (metaOf mc m2 []).alpha = some a
    rw [← this]; exact ha1
  obtain ⟨c1, c2, c3⟩ := a14 a a (.inl ha1) (.inl ha2)
  obtain ⟨d1, d2, d3⟩ := b14 (a / k) (a / k) (.inl (hal m1 a ha1)) (.inl (hal m2 a ha2))
  have hdn : o'.attrs.dataNorm = o.attrs.dataNorm := by
    rw [c1, d1]
    congr 1
    exact ((((hc.data _).filter _)).map _).sum_eq.symm
  have hrn : o'.attrs.randomsNorm = o.attrs.randomsNorm := by
    rw [c2, d2]
    congr 1
    have : ((chosen m1 (mc'.cats m1.source).randoms).map fun r => r.num m2.nbar * r.num m1.compWeight * r.num m1.fkpWeight * r.num m2.fkpWeight).sum =
        k * ((chosen m1 (mc.cats m1.source).randoms).map fun r => r.num m2.nbar * r.num m1.compWeight * r.num m1.fkpWeight * r.num m2.fkpWeight).sum := by
      unfold chosen
      rw [(((hc.randoms m1.source).filter _).map _).sum_eq]
      generalize (mc.cats m1.source).randoms.flatten = l
      clear * -
      induction k with
      | zero => simp
      | succ k ih =>
        simp only [List.replicate_succ, List.flatten_cons, List.filter_append, List.map_append, List.sum_append, ih]
        push_cast; ring
    rw [this]
    field_simp
  rw [hdn, hrn, a13] at b13
  cases b13
  refine ⟨by rw [b12]; exact hal m1 a ha1, hdn, hrn, by rw [a6, b6], ?_⟩
  rw [c3, d3]
  have hamp : ∀ (m : ConvObj.Mesh) V L q, amplitude w (mc'.cats m.source) m V (a / k) L q = amplitude w (mc.cats m.source) m V a L q := by
    intro m V L q
    unfold amplitude
    rw [total_replicate w m L q _ _ k (hc.randoms _)]
    have e1 : total w m L q (mc'.cats m.source).data = total w m L q (mc.cats m.source).data := by
      unfold total chosen
      exact (((hc.data _).filter _).map _).sum_eq.symm
    have e2 : algebraMap ℚ K (a / k) * (k * total w m L q (mc.cats m.source).randoms) = algebraMap ℚ K a * total w m L q (mc.cats m.source).randoms := by
      rw [← mul_assoc]
      congr 1
      rw [← map_natCast (algebraMap ℚ K) k, ← map_mul]
      congr 1
      field_simp
    rw [e1, e2]
  have hpow : ∀ ell, powerAt w mc' leg m1 m2 (a / k) (a / k) norm ell = powerAt w mc leg m1 m2 a a norm ell := by
    intro ell
    funext q
    unfold powerAt
    rw [hamp m1, hamp m2]
  unfold averages
  simp only [hpow, project_slabs w mc mc' hc.slabs]

end NBK.Survey
