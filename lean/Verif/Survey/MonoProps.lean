import Verif.Survey.CaseProps
import Verif.Binned.MaskProps

/-!
# `ConvolvedFFTPower` of catalogs (C137): the monopole
-/
set_option linter.unusedSimpArgs false
namespace NBK.Survey
open NBK

variable {n : Nat} {K : Type} [CommRing K] [Algebra ℚ K]

/-- Conjugation of complex numbers. -/
structure Conj (w : World n K) : Prop where
  twice : ∀ z, w.conj (w.conj z) = z
  re : ∀ z, w.re (w.conj z) = w.re z
  im : ∀ z, w.im (w.conj z) = -w.im z
  pos : ∀ z, 0 ≤ w.re (z * w.conj z)

theorem norm_real {w : World n K} (hc : Conj w) (z : K) : w.im (z * w.conj z) = 0 := by
  have h := hc.im (z * w.conj z)
  rw [map_mul, hc.twice, mul_comm] at h
  linarith

/-- A sum over the modes of a bin. -/
theorem binSum_modes (w : World n K) (mc : Machine n) (box : List ℚ) (nmesh : List Nat) (x2 mu : List ℚ) (f : Fin n → K) (T : Project.Mode → ℚ) (b : Nat) :
    Project.binSum x2 mu T (modesOf w mc box nmesh f) b =
      ((mc.slabs.flatten.flatten.filter fun k => Project.multiIndex x2 mu (w.coord box nmesh k) = b).map fun k =>
        T { w.coord box nmesh k with y := ⟨w.re (f k), w.im (f k)⟩ }).sum := by
  rw [Project.binSum_eq, modes_flat, List.filter_map, List.map_map]
  rfl

theorem visible_map (mu : List ℚ) (a b : Nat → ℚ) (t : ℚ) (h : ∀ q, a q = t * b q) (i j : Nat) : Project.visible mu a i j = t * Project.visible mu b i j := by
  unfold Project.visible Project.entry
  split
  · rw [h, h]; ring
  · rw [h]

theorem visible_nonneg (mu : List ℚ) (a : Nat → ℚ) (h : ∀ q, 0 ≤ a q) (i j : Nat) : 0 ≤ Project.visible mu a i j := by
  unfold Project.visible Project.entry
  split
  · exact add_nonneg (h _) (h _)
  · exact h _

theorem sum_nonneg' (l : List (Fin n)) (T : Fin n → ℚ) (h : ∀ k, 0 ≤ T k) : 0 ≤ (l.map T).sum := by
  induction l with
  | nil => simp
  | cons a l ih => simp only [List.map_cons, List.sum_cons]; linarith [h a]

theorem sum_scaled (l : List (Fin n)) (T U : Fin n → ℚ) (t : ℚ) (h : ∀ k, T k = t * U k) : (l.map T).sum = t * (l.map U).sum := by
  induction l with
  | nil => simp
  | cons a l ih => simp only [List.map_cons, List.sum_cons, h a, ih]; ring

theorem term_re (herm : Bool) (m : Project.Mode) : (Project.poleTerm herm 0 m).re = (if herm && m.nonsingular then 2 else 1) * m.y.re := by
  unfold Project.poleTerm Project.legendre
  split <;> simp
  ring

theorem term_im (herm : Bool) (m : Project.Mode) : (Project.poleTerm herm 0 m).im = (if herm && m.nonsingular then 0 else 1) * m.y.im := by
  unfold Project.poleTerm Project.legendre
  split <;> simp

/-- The average of values with non-negative real parts has one. -/
theorem average_nonneg (w : World n K) (mc : Machine n) (box : List ℚ) (nmesh : List Nat) (ed : List ℚ) (f : Fin n → K) (h : ∀ k, 0 ≤ w.re (f k)) (i : Nat)
    (v : ℚ) (hv : (project w mc box nmesh ed f i).2.2.1 = some v) : 0 ≤ v := by
  unfold project Project.result2d at hv
  dsimp only at hv
  unfold Project.ratio at hv
  split at hv
  · cases hv
  · cases hv
    have h0 : (Project.allPoles []).headD 0 = 0 := rfl
    apply div_nonneg
    · apply visible_nonneg
      intro q
      rw [binSum_modes]
      apply sum_nonneg'
      intro k
      rw [h0, term_re]
      apply mul_nonneg
      · split <;> norm_num
      · exact h k
    · apply visible_nonneg
      intro q
      rw [binSum_modes]
      exact sum_nonneg' _ _ fun k => Nat.cast_nonneg _

/-- The averages of the conjugates. -/
theorem average_conj (w : World n K) (mc : Machine n) (box : List ℚ) (nmesh : List Nat) (ed : List ℚ) (f g : Fin n → K) (hr : ∀ k, w.re (g k) = w.re (f k))
    (hi : ∀ k, w.im (g k) = -w.im (f k)) (i : Nat) : (project w mc box nmesh ed g i).2.2.1 = (project w mc box nmesh ed f i).2.2.1 ∧
      (project w mc box nmesh ed g i).2.2.2.1 = ((project w mc box nmesh ed f i).2.2.2.1).map Neg.neg := by
  have h0 : (Project.allPoles []).headD 0 = 0 := rfl
  unfold project Project.result2d
  dsimp only
  rw [h0]
  have hN : ∀ q, Project.binSum (ed.map (· ^ 2)) [-1, 1] (fun m => (m.w : ℚ)) (modesOf w mc box nmesh g) q =
      1 * Project.binSum (ed.map (· ^ 2)) [-1, 1] (fun m => (m.w : ℚ)) (modesOf w mc box nmesh f) q := by
    intro q; rw [binSum_modes, binSum_modes, one_mul]
  have hR : ∀ q, Project.binSum (ed.map (· ^ 2)) [-1, 1] (fun m => (Project.poleTerm w.hermitian 0 m).re) (modesOf w mc box nmesh g) q =
      1 * Project.binSum (ed.map (· ^ 2)) [-1, 1] (fun m => (Project.poleTerm w.hermitian 0 m).re) (modesOf w mc box nmesh f) q := by
    intro q
    rw [binSum_modes, binSum_modes]
    apply sum_scaled
    intro k
    rw [term_re, term_re]
    dsimp only
    rw [hr k, one_mul]
  have hI : ∀ q, Project.binSum (ed.map (· ^ 2)) [-1, 1] (fun m => (Project.poleTerm w.hermitian 0 m).im) (modesOf w mc box nmesh g) q =
      (-1) * Project.binSum (ed.map (· ^ 2)) [-1, 1] (fun m => (Project.poleTerm w.hermitian 0 m).im) (modesOf w mc box nmesh f) q := by
    intro q
    rw [binSum_modes, binSum_modes]
    apply sum_scaled
    intro k
    rw [term_im, term_im]
    dsimp only
    rw [hi k]; ring
  rw [visible_map _ _ _ _ hN, visible_map _ _ _ _ hR, visible_map _ _ _ _ hI, one_mul, one_mul]
  refine ⟨rfl, ?_⟩
  unfold Project.ratio
  split
  · rfl
  · simp only [Option.map_some, Option.some.injEq]; ring

/-- The norm is not negative. -/
theorem norm_nonneg {d r : Option ℚ} {v : ℚ} (h : Fkp.normFactor d r = .ok v) : 0 ≤ v := by
  unfold Fkp.normFactor at h
  split at h
  · cases h; norm_num
  · split at h
    · rename_i hr
      split at h
      · cases h
      · split at h
        · cases h; exact one_div_nonneg.mpr hr.le
        · cases h
    · cases h; norm_num

theorem conj_rat (w : World n K) (q : ℚ) : w.conj (algebraMap ℚ K q) = algebraMap ℚ K q := RingHom.map_rat_algebraMap _ _

/-- The monopole of a pair of amplitudes. -/
theorem powerAt_zero (w : World n K) (leg : List ℚ → Nat → Fin n → Fin n → K) (hl : Legendre w leg) (mc : Machine n) (m1 m2 : ConvObj.Mesh) (a a2 norm : ℚ) (k : Fin n) :
    powerAt w mc leg m1 m2 a a2 norm 0 k = algebraMap ℚ K norm * (amplitude w (mc.cats m1.source) m1 m1.pmBox.prod a (fun _ => 1) k *
      w.conj (amplitude w (mc.cats m2.source) m2 m1.pmBox.prod a2 (fun _ => 1) k)) := by
  unfold powerAt
  have hL : leg (offset m1) 0 k = fun _ => 1 := funext fun x => hl.zero _ _ _
  rw [hL]
  push_cast
  rw [mul_zero, zero_add, one_mul]
  ring

theorem re_scaled (w : World n K) (q : ℚ) (z : K) : w.re (algebraMap ℚ K q * z) = q * w.re z ∧ w.im (algebraMap ℚ K q * z) = q * w.im z := by
  rw [← Algebra.smul_def, map_smul, map_smul]
  exact ⟨rfl, rfl⟩

/-- C137: the monopole of an autocorrelation is real and not negative in every bin (or NaN in a bin without modes). -/
theorem monopole_nonneg (w : World n K) (hc : Conj w) (leg : List ℚ → Nat → Fin n → Fin n → K) (hl : Legendre w leg) (mc : Machine n) (h : ConvObj.Heap)
    (g : ConvObj.Args) (hp : 0 ∈ g.poles.list) (h' : ConvObj.Heap) (o : ConvObj.Obj) (hk : call w mc h g = (h', .ok o)) (hs : g.second = none) (a : ℚ)
    (ha : o.attrs.alpha = some a) :
    ∃ cr ∈ o.poles.data, ∃ ci ∈ o.poles.data, cr.name = "power_0.real" ∧ ci.name = "power_0.imag" ∧
      (∀ v ∈ cr.vals, v = .nan ∨ ∃ q, 0 ≤ q ∧ v = .fin q) ∧ ∀ v ∈ ci.vals, v = .nan ∨ v = .fin 0 := by
  obtain ⟨r1, r2, m1, m2, norm, ed, a1, a2, a3, a4, a5, a6, a7, a8, a9, -, a11, a12, a13, a14⟩ := call_direct w mc leg hl h g h' o hk
  have e := a5 hs
  subst e
  rw [a1] at a2
  cases a2
  have ha1 : Fkp.alpha (meshOf mc m1).cat = some a := by rw [← a12]; exact ha
  obtain ⟨-, -, c3⟩ := a14 a a (.inl ha1) (.inl ha1)
  have hmem : ∀ c ∈ cols 0 (averages w mc m1 ed (powerAt w mc leg m1 m1 a a norm 0)), c ∈ o.poles.data := by
    intro c hcm
    rw [c3]
    apply List.mem_append_left
    apply List.mem_append_right
    exact List.mem_flatMap.mpr ⟨0, (List.mem_insertionSort _).mpr hp, hcm⟩
  have hre : ∀ k, 0 ≤ w.re (powerAt w mc leg m1 m1 a a norm 0 k) := by
    intro k
    rw [powerAt_zero w leg hl, (re_scaled w _ _).1]
    exact mul_nonneg (norm_nonneg a13) (hc.pos _)
  have him : ∀ k, w.im (powerAt w mc leg m1 m1 a a norm 0 k) = 0 := by
    intro k
    rw [powerAt_zero w leg hl, (re_scaled w _ _).2, norm_real hc, mul_zero]
  refine ⟨_, hmem _ (List.mem_cons_self), _, hmem _ (List.mem_cons_of_mem _ List.mem_cons_self), rfl, rfl, ?_, ?_⟩
  · intro v hv
    obtain ⟨x, hx, rfl⟩ := List.mem_map.mp hv
    obtain ⟨i, -, rfl⟩ := List.mem_map.mp hx
    dsimp only
    cases hq : (project w mc m1.pmBox m1.nmesh ed (powerAt w mc leg m1 m1 a a norm 0) i).2.2.1 with
    | none => exact Or.inl rfl
    | some q => exact Or.inr ⟨q, average_nonneg w mc _ _ ed _ hre i q hq, rfl⟩
  · intro v hv
    obtain ⟨x, hx, rfl⟩ := List.mem_map.mp hv
    obtain ⟨i, -, rfl⟩ := List.mem_map.mp hx
    dsimp only
    have := (average_conj w mc m1.pmBox m1.nmesh ed (powerAt w mc leg m1 m1 a a norm 0) (powerAt w mc leg m1 m1 a a norm 0) (fun _ => rfl)
      (fun k => by rw [him k]; ring) i).2
    cases hq : (project w mc m1.pmBox m1.nmesh ed (powerAt w mc leg m1 m1 a a norm 0) i).2.2.2.1 with
    | none => exact Or.inl rfl
    | some q =>
      rw [hq] at this
      simp only [Option.map_some, Option.some.injEq] at this
      have h0 : q = 0 := by linarith
      rw [h0]
      exact Or.inr rfl

/-- Meshes of a run that ends well may be correlated. -/
theorem call_valid (w : World n K) (mc : Machine n) (h : ConvObj.Heap) (g : ConvObj.Args) (h' : ConvObj.Heap) (o : ConvObj.Obj)
    (hk : call w mc h g = (h', .ok o)) (i j : Nat) (m1 m2 : ConvObj.Mesh) (h1 : h'[i]? = some m1) (h2 : h'[j]? = some m2) (hf : g.first = .mesh i)
    (hs : g.second = some (.mesh j) ∨ (g.second = none ∧ j = i)) : ConvObj.validCross m1 m2 = true := by
  obtain ⟨t1, t2, N1, N2, _, _, _, u1, u2, u3, u4, u5, _, _, _, _, u10, u11, u12, u13, _⟩ := ConvObj.result_spec _ (consistent w mc) _ _ _ _ hk
  have v1 : t1 = i := u3 i (by dsimp only; rw [hf]; rfl)
  have v2 : t2 = j := by
    rcases hs with hs | ⟨hs, hj⟩
    · exact u4 j (by dsimp only; rw [hs]; rfl)
    · rw [u5 (by dsimp only; rw [hs]; rfl), v1, hj]
  rw [v1, h1] at u1
  rw [v2, h2] at u2
  cases u1
  cases u2
  exact (ConvObj.valid_iff _ _).mpr ⟨u10, u11, u12, u13⟩

/-- The conjugate of a column of imaginary parts. -/
def negCol (v : List Binned.Val) : List Binned.Val := v.map Binned.negVal

/-- C137: with the two meshes exchanged - in the same box - the monopole is the complex conjugate; `alpha`, the norms and the edges are the same. -/
theorem monopole_swapped (w : World n K) (hc : Conj w) (leg : List ℚ → Nat → Fin n → Fin n → K) (hl : Legendre w leg) (mc : Machine n) (h : ConvObj.Heap)
    (g g' : ConvObj.Args) (hg : g.poles.list = [0]) (hg' : g' = { g with first := g'.first, second := g'.second }) (h1 h2 : ConvObj.Heap) (o o' : ConvObj.Obj)
    (hk : call w mc h g = (h1, .ok o)) (hk' : call w mc h g' = (h2, .ok o')) (i j : Nat) (n1 n2 : ConvObj.Mesh) (hi : h[i]? = some n1) (hj : h[j]? = some n2)
    (hf : g.first = .mesh i) (hs : g.second = some (.mesh j)) (hf' : g'.first = .mesh j) (hs' : g'.second = some (.mesh i))
    (hb : n2.boxSize = n1.boxSize ∧ n2.pmBox = n1.pmBox ∧ n2.nmesh = n1.nmesh) (a : ℚ) (ha : o.attrs.alpha = some a) :
    o'.attrs.alpha = o.attrs.alpha ∧ o'.attrs.dataNorm = o.attrs.dataNorm ∧ o'.attrs.randomsNorm = o.attrs.randomsNorm ∧ o'.edges = o.edges ∧
    ∃ k re im modes, o.poles.data = [⟨"k", false, k⟩, ⟨"power_0.real", false, re⟩, ⟨"power_0.imag", false, im⟩, ⟨"modes", true, modes⟩] ∧
      o'.poles.data = [⟨"k", false, k⟩, ⟨"power_0.real", false, re⟩, ⟨"power_0.imag", false, negCol im⟩, ⟨"modes", true, modes⟩] := by
  obtain ⟨p1, p2⟩ := call_meshes w mc h g h1 o hk i j n1 n2 hi hj hf (.inl hs)
  obtain ⟨p1', p2'⟩ := call_meshes w mc h g' h2 o' hk' j i n2 n1 hj hi hf' (.inl hs')
  have hfin : ∀ m, final n1 n2 m = ConvObj.clearMesh m := by intro m; unfold final; rw [if_pos hb.1.symm]
  have hfin' : ∀ m, final n2 n1 m = ConvObj.clearMesh m := by intro m; unfold final; rw [if_pos hb.1]
  rw [hfin] at p1 p2
  rw [hfin'] at p1' p2'
  have hv := call_valid w mc h g h1 o hk i j _ _ p1 p2 hf (.inl hs)
  obtain ⟨r1, r2, m1, m2, norm, ed, a1, a2, a3, a4, a5, a6, a7, a8, a9, ⟨cs, a10⟩, a11, a12, a13, a14⟩ := call_direct w mc leg hl h g h1 o hk
  obtain ⟨s1, s2, M1, M2, norm', ed', b1, b2, b3, b4, b5, b6, b7, b8, b9, ⟨cs', b10⟩, b11, b12, b13, b14⟩ := call_direct w mc leg hl h g' h2 o' hk'
  rw [a3 i hf, p1] at a1; rw [a4 j hs, p2] at a2; rw [b3 j hf', p1'] at b1; rw [b4 i hs', p2'] at b2
  cases a1; cases a2; cases b1; cases b2
  have hm : (ConvObj.clearMesh n2).pmBox = (ConvObj.clearMesh n1).pmBox ∧ (ConvObj.clearMesh n2).nmesh = (ConvObj.clearMesh n1).nmesh := hb.2
  generalize ConvObj.clearMesh n1 = m1 at *
  generalize ConvObj.clearMesh n2 = m2 at *
  obtain ⟨v1, v2, v3, v4⟩ := (ConvObj.valid_iff m1 m2).mp hv
  have ha1 : Fkp.alpha (meshOf mc m1).cat = some a := by rw [← a12]; exact ha
  have ha2 : Fkp.alpha (meshOf mc m2).cat = some a := by
    have := (same_alpha mc m1 m2 hv []).1
    show (metaOf mc m2 []).alpha = some a
    rw [← this]; exact ha1
  obtain ⟨c1, c2, c3⟩ := a14 a a (.inl ha1) (.inl ha2)
  obtain ⟨d1, d2, d3⟩ := b14 a a (.inl ha2) (.inl ha1)
  have hch : ∀ rows, ((chosen m2 rows).map fun r => r.num m1.nbar * r.num m2.compWeight * r.num m2.fkpWeight * r.num m1.fkpWeight) =
      (chosen m1 rows).map fun r => r.num m2.nbar * r.num m1.compWeight * r.num m1.fkpWeight * r.num m2.fkpWeight := by
    intro rows
    have : chosen m2 rows = chosen m1 rows := by unfold chosen; rw [v2]
    rw [this, v3, v4]
    apply List.map_congr_left
    intro r _
    ring
  rw [hch, v1] at d1 d2
  have hbins : ConvObj.kBins (envOf w mc) m2 ⟨g'.poles.list, g'.dk, g'.kmin, g'.kmax, m2.nmesh, m2.boxSize, m2.boxPad, m2.boxCenter, m2.resampler, m2.interlaced⟩ =
      ConvObj.kBins (envOf w mc) m1 ⟨g.poles.list, g.dk, g.kmin, g.kmax, m1.nmesh, m1.boxSize, m1.boxPad, m1.boxCenter, m1.resampler, m1.interlaced⟩ := by
    unfold ConvObj.kBins
    rw [hg', hm.1, hm.2]
  rw [hbins, a10] at b10
  cases b10
  rw [d1, d2, ← c1, ← c2, a13] at b13
  cases b13
  refine ⟨by rw [b12, ha2, ha], by rw [d1, c1], by rw [d2, c2], by rw [b6, a6], ?_⟩
  have hpoles : g'.poles.list = [0] := by rw [hg']; exact hg
  have hs0 : ([0] : List Nat).insertionSort (· ≤ ·) = [0] := rfl
  rw [hpoles, hs0, hm.1, hm.2] at d3
  rw [hg, hs0] at c3
  have hav := fun q => average_conj w mc m1.pmBox m1.nmesh ed (powerAt w mc leg m1 m2 a a norm 0) (powerAt w mc leg m2 m1 a a norm 0) (by
      intro k
      rw [powerAt_zero w leg hl, powerAt_zero w leg hl, (re_scaled w _ _).1, (re_scaled w _ _).1, hm.1]
      congr 1
      rw [← hc.re, map_mul, hc.twice, mul_comm]) (by
      intro k
      rw [powerAt_zero w leg hl, powerAt_zero w leg hl, (re_scaled w _ _).2, (re_scaled w _ _).2, hm.1, ← mul_neg]
      congr 1
      rw [← hc.im, map_mul w.conj, hc.twice, mul_comm]) q
  refine ⟨(List.range (ed.length - 1)).map fun i => FftObj.val (project w mc m1.pmBox m1.nmesh ed (fun _ => 0) i).1, (averages w mc m1 ed (powerAt w mc leg m1 m2 a a norm 0)).map (fun x => FftObj.val x.1),
    (averages w mc m1 ed (powerAt w mc leg m1 m2 a a norm 0)).map (fun x => FftObj.val x.2),
    (List.range (ed.length - 1)).map fun i => FftObj.val (some (project w mc m1.pmBox m1.nmesh ed (fun _ => 0) i).2.2.2.2), by rw [c3]; rfl, ?_⟩
  rw [d3]
  have e1 : (averages w mc m2 ed (powerAt w mc leg m2 m1 a a norm 0)).map (fun x => FftObj.val x.1) =
      (averages w mc m1 ed (powerAt w mc leg m1 m2 a a norm 0)).map fun x => FftObj.val x.1 := by
    unfold averages
    rw [List.map_map, List.map_map, hm.1, hm.2]
    apply List.map_congr_left
    intro q _
    show FftObj.val (project w mc m1.pmBox m1.nmesh ed (powerAt w mc leg m2 m1 a a norm 0) q).2.2.1 = FftObj.val (project w mc m1.pmBox m1.nmesh ed (powerAt w mc leg m1 m2 a a norm 0) q).2.2.1
    rw [(hav q).1]
  have e2 : (averages w mc m2 ed (powerAt w mc leg m2 m1 a a norm 0)).map (fun x => FftObj.val x.2) =
      negCol ((averages w mc m1 ed (powerAt w mc leg m1 m2 a a norm 0)).map fun x => FftObj.val x.2) := by
    unfold averages negCol
    rw [List.map_map, List.map_map, List.map_map, hm.1, hm.2]
    apply List.map_congr_left
    intro q _
    show FftObj.val (project w mc m1.pmBox m1.nmesh ed (powerAt w mc leg m2 m1 a a norm 0) q).2.2.2.1 =
      Binned.negVal (FftObj.val (project w mc m1.pmBox m1.nmesh ed (powerAt w mc leg m1 m2 a a norm 0) q).2.2.2.1)
    rw [(hav q).2]
    cases (project w mc m1.pmBox m1.nmesh ed (powerAt w mc leg m1 m2 a a norm 0) q).2.2.2.1 <;> rfl
  simp only [List.flatMap_cons, List.flatMap_nil, cols, e1, e2]
  rfl

/-- The case of `CaseProps` has such a conjugation (its values are real). -/
theorem conj_world : Conj world :=
  ⟨fun _ => rfl, fun _ => rfl, fun _ => (neg_zero : -(0 : ℚ) = 0).symm, fun z => mul_self_nonneg z⟩

-- its monopole: 0 and 16 (`case_values`), which is real
example (h' : ConvObj.Heap) (o : ConvObj.Obj) (hk : call world machA [] gA = (h', .ok o)) (a : ℚ) (ha : o.attrs.alpha = some a) :
    ∃ cr ∈ o.poles.data, ∃ ci ∈ o.poles.data, cr.name = "power_0.real" ∧ ci.name = "power_0.imag" ∧
      (∀ v ∈ cr.vals, v = .nan ∨ ∃ q, 0 ≤ q ∧ v = .fin q) ∧ ∀ v ∈ ci.vals, v = .nan ∨ v = .fin 0 :=
  monopole_nonneg world conj_world legendre legendre_holds machA [] gA (by decide) h' o hk rfl a ha

end NBK.Survey
