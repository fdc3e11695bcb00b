import Verif.Survey.Props
import Verif.Convpower.Props

/-!
# `ConvolvedFFTPower` of catalogs (C137): the multipoles as sums over the objects
-/
set_option linter.unusedSimpArgs false
namespace NBK.Survey
open NBK

variable {n : Nat} {K : Type} [CommRing K] [Algebra ℚ K]

/-- The selected objects of a species. -/
def chosen (m : ConvObj.Mesh) (rows : List (List Raw)) : List Raw := rows.flatten.filter fun r => r.flag m.selection

/-- The mass of an object: completeness weight, FKP weight and value. -/
def massOf (m : ConvObj.Mesh) (r : Raw) : ℚ := r.num m.compWeight * r.num m.fkpWeight * r.num "Value"

/-- The contribution of an object to a mode: the cells that get a part of it, with their phases and the values `L` there. -/
def spread (w : World n K) (m : ConvObj.Mesh) (L : Fin n → K) (k : Fin n) (r : Raw) : K :=
  ∑ x, w.ph k x * (L x * algebraMap ℚ K (w.win m.resampler m.interlaced (axes m.boxSize) (fun a => r.pos a - axes m.boxCenter a) x))

/-- The weighted sum over the selected objects of a species. -/
def total (w : World n K) (m : ConvObj.Mesh) (L : Fin n → K) (k : Fin n) (rows : List (List Raw)) : K :=
  ((chosen m rows).map fun r => algebraMap ℚ K (massOf m r) * spread w m L k r).sum

/-- The volume of a cell of `pm`. -/
def cellVolume (m : ConvObj.Mesh) : ℚ :=
  (axes m.pmBox 0 / axes m.nmesh 0) * (axes m.pmBox 1 / axes m.nmesh 1) * (axes m.pmBox 2 / axes m.nmesh 2)

/-- The amplitude of the documentation: data minus `alpha` times randoms, with the values `L` on the cells. -/
def amplitude (w : World n K) (s : Survey) (m : ConvObj.Mesh) (V a : ℚ) (L : Fin n → K) (k : Fin n) : K :=
  algebraMap ℚ K (V / cellVolume m) * ((ConvObj.compensation m).elim 1 fun c => w.comp c k) *
    (total w m L k s.data - algebraMap ℚ K a * total w m L k s.randoms)

theorem sel_row (m : ConvObj.Mesh) (rows : List (List Raw)) (f : Raw → Fkp.Row) (hf : ∀ r, (f r).sel = r.flag m.selection) (a b : Bool) :
    (Fkp.Cat.mk (rows.map (·.map f)) a b).all = (chosen m rows).map f := by
  rw [all_map, List.filter_map]
  unfold chosen
  congr 2
  funext r
  exact hf r

theorem paint_sum (w : World n K) (mc : Machine n) (m : ConvObj.Mesh) (rows : List (List Raw)) (L : Fin n → K) (k : Fin n) :
    ∑ x, w.ph k x * (L x * algebraMap ℚ K (Fkp.paint (w.win m.resampler m.interlaced) (meshOf mc m) ⟨rows.map (·.map (rowOf m)), true, true⟩ x)) =
      total w m L k rows := by
  unfold Fkp.paint total
  simp only [Fkp.allSum_eq]
  rw [sel_row m rows (rowOf m) (fun _ => rfl)]
  generalize chosen m rows = l
  induction l with
  | nil => simp
  | cons r l ih =>
    simp only [List.map_cons, List.sum_cons, map_add, mul_add, Finset.sum_add_distrib]
    rw [← ih]
    congr 1
    unfold spread massOf
    rw [Finset.mul_sum]
    apply Finset.sum_congr rfl
    intro x _
    have : algebraMap ℚ K ((rowOf m r).comp * (rowOf m r).fkp * (rowOf m r).val *
        w.win m.resampler m.interlaced (meshOf mc m).boxSize ((meshOf mc m).recentered (rowOf m r)) x) =
        algebraMap ℚ K (r.num m.compWeight * r.num m.fkpWeight * r.num "Value") *
          algebraMap ℚ K (w.win m.resampler m.interlaced (axes m.boxSize) (fun a => r.pos a - axes m.boxCenter a) x) := by
      rw [← map_mul]; rfl
    rw [this]; ring

/-- The number `a` is `alpha`, or there are no randoms. -/
def Fits (mc : Machine n) (m : ConvObj.Mesh) (a : ℚ) : Prop := Fkp.alpha (meshOf mc m).cat = some a ∨ (mc.cats m.source).randoms.flatten = []

theorem field_fits (w : World n K) (mc : Machine n) (m : ConvObj.Mesh) (a : ℚ) (ha : Fits mc m a) (x : Fin n) :
    Fkp.toRealField (w.win m.resampler m.interlaced) (meshOf mc m) x =
      some ((Fkp.paint (w.win m.resampler m.interlaced) (meshOf mc m) (meshOf mc m).cat.data x -
        a * Fkp.paint (w.win m.resampler m.interlaced) (meshOf mc m) (meshOf mc m).cat.randoms x) / (meshOf mc m).cellVolume) := by
  rcases ha with ha | ha
  · exact Fkp.field_some _ _ a ha x
  · have hc : (meshOf mc m).cat.randoms.csize = 0 := by
      show (Fkp.Cat.mk ((mc.cats m.source).randoms.map (·.map (rowOf m))) true true).csize = 0
      rw [csize_map, ha]; rfl
    have hp : Fkp.paint (w.win m.resampler m.interlaced) (meshOf mc m) (meshOf mc m).cat.randoms x = 0 := by
      unfold Fkp.paint
      rw [Fkp.allSum_eq]
      show (List.map _ (Fkp.Cat.mk ((mc.cats m.source).randoms.map (·.map (rowOf m))) true true).all).sum = 0
      rw [all_map, ha]; rfl
    unfold Fkp.toRealField
    rw [hp]
    simp only [hc, gt_iff_lt, lt_irrefl, if_false, Option.map_some, mul_zero, sub_zero]

/-- The transform of the field with values `L` on the cells. -/
theorem field_sum (w : World n K) (mc : Machine n) (m : ConvObj.Mesh) (a : ℚ) (ha : Fits mc m a) (L : Fin n → K) (k : Fin n) :
    ∑ x, w.ph k x * (L x * fieldOf w mc m x) = algebraMap ℚ K (1 / cellVolume m) *
      (total w m L k (mc.cats m.source).data - algebraMap ℚ K a * total w m L k (mc.cats m.source).randoms) := by
  rw [← paint_sum w mc m (mc.cats m.source).data L k, ← paint_sum w mc m (mc.cats m.source).randoms L k, Finset.mul_sum, ← Finset.sum_sub_distrib,
    Finset.mul_sum]
  apply Finset.sum_congr rfl
  intro x _
  unfold fieldOf
  rw [field_fits w mc m a ha]
  have hv : (meshOf mc m).cellVolume = cellVolume m := rfl
  have : algebraMap ℚ K ((some ((Fkp.paint (w.win m.resampler m.interlaced) (meshOf mc m) (meshOf mc m).cat.data x -
      a * Fkp.paint (w.win m.resampler m.interlaced) (meshOf mc m) (meshOf mc m).cat.randoms x) / (meshOf mc m).cellVolume)).getD 0) =
      algebraMap ℚ K (1 / cellVolume m) * (algebraMap ℚ K (Fkp.paint (w.win m.resampler m.interlaced) (meshOf mc m) (meshOf mc m).cat.data x) -
        algebraMap ℚ K a * algebraMap ℚ K (Fkp.paint (w.win m.resampler m.interlaced) (meshOf mc m) (meshOf mc m).cat.randoms x)) := by
    rw [Option.getD_some, ← map_mul, ← map_sub, ← map_mul, hv]
    congr 1
    ring
  rw [this]
  have h1 : (meshOf mc m).cat.data = ⟨(mc.cats m.source).data.map (·.map (rowOf m)), true, true⟩ := rfl
  have h2 : (meshOf mc m).cat.randoms = ⟨(mc.cats m.source).randoms.map (·.map (rowOf m)), true, true⟩ := rfl
  rw [h1, h2]
  ring

/-- The Legendre polynomials of the angle between a mode and the position of a cell, for the offset of the grid; the spherical harmonics satisfy the addition
theorem. -/
structure Legendre (w : World n K) (leg : List ℚ → Nat → Fin n → Fin n → K) : Prop where
  zero : ∀ off k x, leg off 0 k x = 1
  add : ∀ off ell k x, ell ≠ 0 → algebraMap ℚ K (4 * w.pi) * ((w.ylms off ell).map fun y => y.2 k * y.1 x).sum = (2 * ell + 1) * leg off ell k x

theorem A_direct (w : World n K) (mc : Machine n) (leg : List ℚ → Nat → Fin n → Fin n → K) (hl : Legendre w leg) (ed : List ℚ) (m1 m2 : ConvObj.Mesh)
    (nmesh : List Nat) (norm a : ℚ) (ha : Fits mc m2 a) (ell : Nat) (k : Fin n) :
    Convpower.A (convOf w mc ed m1 m2 nmesh (ConvObj.compensation m1) (ConvObj.compensation m2) norm) (fieldOf w mc m2) ell k =
      (2 * ell + 1) * amplitude w (mc.cats m2.source) m2 m1.pmBox.prod a (leg (offset m1) ell k) k := by
  have hf : ∀ m, Convpower.factor ((ConvObj.compensation m).map w.comp) k = ((ConvObj.compensation m).elim 1 fun c => w.comp c k) := by
    intro m; cases ConvObj.compensation m <;> rfl
  have hV : algebraMap ℚ K (m1.pmBox.prod / cellVolume m2) = algebraMap ℚ K m1.pmBox.prod * algebraMap ℚ K (1 / cellVolume m2) := by
    rw [← map_mul]; congr 1; ring
  by_cases h0 : ell = 0
  · subst h0
    unfold Convpower.A Convpower.A0 amplitude
    rw [if_pos rfl]
    have h := field_sum w mc m2 a ha (leg (offset m1) 0 k) k
    simp only [hl.zero, one_mul] at h
    have hL : leg (offset m1) 0 k = fun _ => 1 := funext fun x => hl.zero _ _ _
    rw [hL] at h ⊢
    show algebraMap ℚ K m1.pmBox.prod * Convpower.factor ((ConvObj.compensation m2).map w.comp) k * (∑ x, w.ph k x * fieldOf w mc m2 x) = _
    rw [h, hf, hV]
    push_cast
    ring
  · rw [Convpower.yamamoto (convOf w mc ed m1 m2 nmesh (ConvObj.compensation m1) (ConvObj.compensation m2) norm) w.ph (fun _ _ => rfl)
      (leg (offset m1)) ell h0 k (fun x => hl.add _ ell k x h0) (fieldOf w mc m2), field_sum w mc m2 a ha]
    unfold amplitude
    show (2 * (ell : K) + 1) * algebraMap ℚ K m1.pmBox.prod * Convpower.factor ((ConvObj.compensation m2).map w.comp) k * _ = _
    rw [hf, hV]
    ring

theorem A0_direct (w : World n K) (mc : Machine n) (ed : List ℚ) (m1 m2 : ConvObj.Mesh)
    (nmesh : List Nat) (norm a : ℚ) (ha : Fits mc m1 a) (k : Fin n) :
    Convpower.A0 (convOf w mc ed m1 m2 nmesh (ConvObj.compensation m1) (ConvObj.compensation m2) norm) (fieldOf w mc m1) ((ConvObj.compensation m1).map w.comp) k =
      amplitude w (mc.cats m1.source) m1 m1.pmBox.prod a (fun _ => 1) k := by
  have hf : Convpower.factor ((ConvObj.compensation m1).map w.comp) k = ((ConvObj.compensation m1).elim 1 fun c => w.comp c k) := by
    cases ConvObj.compensation m1 <;> rfl
  have hV : algebraMap ℚ K (m1.pmBox.prod / cellVolume m1) = algebraMap ℚ K m1.pmBox.prod * algebraMap ℚ K (1 / cellVolume m1) := by
    rw [← map_mul]; congr 1; ring
  have h := field_sum w mc m1 a ha (fun _ => 1) k
  simp only [one_mul] at h
  unfold Convpower.A0 amplitude
  show algebraMap ℚ K m1.pmBox.prod * Convpower.factor ((ConvObj.compensation m1).map w.comp) k * (∑ x, w.ph k x * fieldOf w mc m1 x) = _
  rw [h, hf, hV]
  ring

theorem finite_some (w : World n K) (mc : Machine n) (m : ConvObj.Mesh) (a : ℚ) (ha : Fits mc m a) : finite w mc m = true := by
  unfold finite
  rw [List.all_eq_true]
  intro x _
  rw [field_fits w mc m a ha]
  rfl

theorem consistent (w : World n K) (mc : Machine n) : ConvObj.Consistent (envOf w mc) := fun _ _ _ _ _ => ⟨rfl, rfl⟩

theorem sized (w : World n K) (mc : Machine n) : ConvObj.Sized (envOf w mc) := by
  intro ed m1 m2 nm c1 c2 norm
  refine ⟨?_, ?_, ?_⟩
  · show ((List.range (ed.length - 1)).map _).length = _
    simp
  · show ((List.range (ed.length - 1)).map _).length = _
    simp
  · intro f
    show ((List.range (ed.length - 1)).map _).length = _
    simp

/-- The power of the multipole `ell` at a mode: the product of the two amplitudes over the norm. -/
def powerAt (w : World n K) (mc : Machine n) (leg : List ℚ → Nat → Fin n → Fin n → K) (m1 m2 : ConvObj.Mesh) (a a2 norm : ℚ) (ell : Nat) (k : Fin n) : K :=
  algebraMap ℚ K norm * amplitude w (mc.cats m1.source) m1 m1.pmBox.prod a (fun _ => 1) k *
    w.conj ((2 * ell + 1) * amplitude w (mc.cats m2.source) m2 m1.pmBox.prod a2 (leg (offset m1) ell k) k)

/-- The two columns of a multipole with values `v`. -/
def cols (ell : Nat) (v : List (Option ℚ × Option ℚ)) : List Binned.Col :=
  [⟨"power_" ++ toString ell ++ ".real", false, v.map fun x => FftObj.val x.1⟩, ⟨"power_" ++ toString ell ++ ".imag", false, v.map fun x => FftObj.val x.2⟩]

/-- The averages of a quantity over the bins. -/
def averages (w : World n K) (mc : Machine n) (m : ConvObj.Mesh) (ed : List ℚ) (f : Fin n → K) : List (Option ℚ × Option ℚ) :=
  (List.range (ed.length - 1)).map fun i => ((project w mc m.pmBox m.nmesh ed f i).2.2.1, (project w mc m.pmBox m.nmesh ed f i).2.2.2.1)

/-- C137: the result of any run on any ranks, autocorrelation or cross-correlation. The columns of a multipole are the averages over the bins of the product of
the amplitude of the first mesh and the conjugate of `2 ell + 1` times that of the second with the Legendre polynomial of the angle between the mode and the
positions: sums over the selected objects of data minus `alpha` times randoms, with the weights, the window and the compensation of each mesh, over the norm
of the randoms (without randoms of the data alone). -/
theorem call_direct (w : World n K) (mc : Machine n) (leg : List ℚ → Nat → Fin n → Fin n → K) (hl : Legendre w leg) (h : ConvObj.Heap) (g : ConvObj.Args)
    (h' : ConvObj.Heap) (o : ConvObj.Obj) (hk : call w mc h g = (h', .ok o)) :
    ∃ (r1 r2 : Nat) (m1 m2 : ConvObj.Mesh) (norm : ℚ) (ed : List ℚ), h'[r1]? = some m1 ∧ h'[r2]? = some m2 ∧ (∀ i, g.first = .mesh i → r1 = i) ∧
      (∀ i, g.second = some (.mesh i) → r2 = i) ∧ (g.second = none → r2 = r1) ∧ o.edges = some ed ∧ m2.source = m1.source ∧
      m2.selection = m1.selection ∧ m2.compWeight = m1.compWeight ∧
      (∃ cs, ConvObj.kBins (envOf w mc) m1 ⟨g.poles.list, g.dk, g.kmin, g.kmax, m1.nmesh, m1.boxSize, m1.boxPad, m1.boxCenter, m1.resampler, m1.interlaced⟩ =
        .ok (ed, cs)) ∧ o.attrs.shotnoise = shotOf (pairOf mc m1 m2) o.attrs.alpha o.attrs.randomsNorm ∧
      o.attrs.alpha = Fkp.alpha (meshOf mc m1).cat ∧
      Fkp.normFactor o.attrs.dataNorm o.attrs.randomsNorm = .ok norm ∧
      ∀ a a2, Fits mc m1 a → Fits mc m2 a2 →
        o.attrs.dataNorm = some (((chosen m1 (mc.cats m1.source).data).map fun r =>
          r.num m2.nbar * r.num m1.compWeight * r.num m1.fkpWeight * r.num m2.fkpWeight).sum) ∧
        o.attrs.randomsNorm = some (a * ((chosen m1 (mc.cats m1.source).randoms).map fun r =>
          r.num m2.nbar * r.num m1.compWeight * r.num m1.fkpWeight * r.num m2.fkpWeight).sum) ∧
        o.poles.data = [⟨"k", false, (List.range (ed.length - 1)).map fun i => FftObj.val (project w mc m1.pmBox m1.nmesh ed (fun _ => 0) i).1⟩] ++
          (g.poles.list.insertionSort (· ≤ ·)).flatMap (fun ell => cols ell (averages w mc m1 ed (powerAt w mc leg m1 m2 a a2 norm ell))) ++
          [⟨"modes", true, (List.range (ed.length - 1)).map fun i => FftObj.val (some (project w mc m1.pmBox m1.nmesh ed (fun _ => 0) i).2.2.2.2)⟩] := by
  unfold call at hk
  obtain ⟨r1, r2, m1, m2, norm, ed, cs, q1, q2, q3, q4, q5, q6, q7, q8, q9, q10, q11, q12, q13, q14, q15, q16, q17, q18, q19, q20, q21, q22, q23, q24, q25, q26, q27,
    q28, q29, q30⟩ := ConvObj.result_spec _ (consistent w mc) _ _ _ _ hk
  refine ⟨r1, r2, m1, m2, norm, ed, q1, q2, ?_, ?_, ?_, q26, q10, q11, q12, ⟨cs, by rw [← q15]; exact q25⟩, q19, q16, q24, ?_⟩
  · intro i hi; apply q3; dsimp only; rw [hi]; rfl
  · intro i hi; apply q4; dsimp only; rw [hi]; rfl
  · intro hi; apply q5; dsimp only; rw [hi]; rfl
  intro a a2 ha ha2
  refine ⟨?_, ?_, ?_⟩
  · rw [q17]
    show some _ = _
    rw [Fkp.allSum_eq]
    unfold pairOf catOf
    rw [sel_row m1 _ (pairRow m1 m2) (fun _ => rfl), List.map_map]
    rfl
  · rw [q18]
    show Fkp.normSum (pairOf mc m1 m2) Fkp.Row.val .randoms _ = _
    unfold Fkp.normSum
    simp only
    rw [Fkp.selected_flatten]
    simp only [Fkp.allSum_eq]
    unfold pairOf catOf
    rw [sel_row m1 _ (pairRow m1 m2) (fun _ => rfl), List.isEmpty_map]
    have ha' : o.attrs.alpha = some a ∨ chosen m1 (mc.cats m1.source).randoms = [] := by
      rcases ha with ha | ha
      · exact Or.inl (by rw [q16]; exact ha)
      · exact Or.inr (by unfold chosen; rw [ha]; rfl)
    generalize chosen m1 (mc.cats m1.source).randoms = l at *
    by_cases hl : l = []
    · subst hl; simp
    · rw [if_neg (by simpa using hl), ha'.resolve_right hl]
      simp only [Option.map_some, List.map_map]
      congr 1
      rw [← List.sum_map_mul_left]
      congr 1
      apply List.map_congr_left
      intro r _
      show r.num m2.nbar * r.num m1.compWeight * r.num m1.fkpWeight * r.num m2.fkpWeight * a = _
      ring
  · rw [q30]
    dsimp only
    congr 2
    · congr 2
      show ((List.range (ed.length - 1)).map _).map _ = _
      rw [List.map_map]; rfl
    · apply List.flatMap_congr
      intro ell _
      have hv : ((envOf w mc).conv ed m1 m2 m1.nmesh (ConvObj.compensation m1) (ConvObj.compensation m2) norm).projP (fun i =>
          ((envOf w mc).conv ed m1 m2 m1.nmesh (ConvObj.compensation m1) (ConvObj.compensation m2) norm).norm *
          Convpower.A0 ((envOf w mc).conv ed m1 m2 m1.nmesh (ConvObj.compensation m1) (ConvObj.compensation m2) norm)
            ((envOf w mc).conv ed m1 m2 m1.nmesh (ConvObj.compensation m1) (ConvObj.compensation m2) norm).field1
            ((envOf w mc).conv ed m1 m2 m1.nmesh (ConvObj.compensation m1) (ConvObj.compensation m2) norm).comp1 i *
          ((envOf w mc).conv ed m1 m2 m1.nmesh (ConvObj.compensation m1) (ConvObj.compensation m2) norm).conj
            (Convpower.A ((envOf w mc).conv ed m1 m2 m1.nmesh (ConvObj.compensation m1) (ConvObj.compensation m2) norm)
              ((envOf w mc).conv ed m1 m2 m1.nmesh (ConvObj.compensation m1) (ConvObj.compensation m2) norm).field2 ell i)) =
          averages w mc m1 ed (powerAt w mc leg m1 m2 a a2 norm ell) := by
        have hp : ∀ f, (convOf w mc ed m1 m2 m1.nmesh (ConvObj.compensation m1) (ConvObj.compensation m2) norm).projP f = averages w mc m1 ed f := by
          intro f
          show (List.range (ed.length - 1)).map _ = _
          simp only [finite_some w mc m1 a ha, finite_some w mc m2 a2 ha2, Bool.and_self, if_true]
          rfl
        show (convOf w mc ed m1 m2 m1.nmesh (ConvObj.compensation m1) (ConvObj.compensation m2) norm).projP _ = _
        rw [hp]
        congr 1
        funext k
        unfold powerAt
        rw [← A_direct w mc leg hl ed m1 m2 m1.nmesh norm a2 ha2, ← A0_direct w mc ed m1 m2 m1.nmesh norm a ha]
        rfl
      rw [hv]
      rfl
    · refine congrArg (fun v => (⟨"modes", true, v⟩ : Binned.Col)) ?_
      show ((List.range (ed.length - 1)).map _).map _ = _
      rw [List.map_map]; rfl

end NBK.Survey
