import Verif.Survey.MoreProps

/-!
# `ConvolvedFFTPower` of catalogs (C137): translations
-/
set_option linter.unusedSimpArgs false
namespace NBK.Survey
open NBK

variable {n : Nat} {K : Type} [CommRing K] [Algebra ℚ K]

/-- An object moved by `d`. -/
def moveRaw (d : List ℚ) (r : Raw) : Raw := { r with pos := fun a => r.pos a + axes d a }

/-- The catalogs with all objects moved. -/
def moveCats (d : List ℚ) (mc : Machine n) : Machine n :=
  { mc with cats := fun i => { mc.cats i with data := (mc.cats i).data.map (·.map (moveRaw d)), randoms := (mc.cats i).randoms.map (·.map (moveRaw d)) } }

/-- A mesh with the box moved. -/
def moveMesh (d : List ℚ) (m : ConvObj.Mesh) : ConvObj.Mesh := { m with boxCenter := List.zipWith (· + ·) m.boxCenter d }

theorem axes_add (l d : List ℚ) (h : l.length = d.length) (a : Fkp.Axis) : axes (List.zipWith (· + ·) l d) a = axes l a + axes d a := by
  unfold axes
  rw [List.getD_eq_getElem?_getD, List.getD_eq_getElem?_getD, List.getD_eq_getElem?_getD, List.getElem?_zipWith]
  by_cases ha : (a : Nat) < l.length
  · rw [List.getElem?_eq_getElem ha, List.getElem?_eq_getElem (h ▸ ha)]; rfl
  · rw [List.getElem?_eq_none (by omega), List.getElem?_eq_none (by omega)]; simp

theorem flatten_move (d : List ℚ) (rows : List (List Raw)) : (rows.map (·.map (moveRaw d))).flatten = rows.flatten.map (moveRaw d) := by
  rw [List.map_flatten]

/-- The moved catalog: every sum over the selected objects of what does not depend on the positions. -/
theorem chosen_move (d : List ℚ) (m m' : ConvObj.Mesh) (hm : m'.selection = m.selection) (rows : List (List Raw)) :
    chosen m' (rows.map (·.map (moveRaw d))) = (chosen m rows).map (moveRaw d) := by
  unfold chosen
  rw [flatten_move, List.filter_map, hm]
  rfl

theorem amplitude_move (w : World n K) (mc : Machine n) (d : List ℚ) (m : ConvObj.Mesh) (hd : m.boxCenter.length = d.length) (V a : ℚ) (k : Fin n) :
    amplitude w ((moveCats d mc).cats m.source) (moveMesh d m) V a (fun _ => 1) k = amplitude w (mc.cats m.source) m V a (fun _ => 1) k := by
  have key : ∀ rows, total w (moveMesh d m) (fun _ => 1) k (rows.map (·.map (moveRaw d))) = total w m (fun _ => 1) k rows := by
    intro rows
    unfold total
    rw [chosen_move d m (moveMesh d m) rfl, List.map_map]
    congr 1
    apply List.map_congr_left
    intro r _
    show algebraMap ℚ K (massOf m r) * _ = _
    congr 1
    unfold spread
    apply Finset.sum_congr rfl
    intro x _
    have : (fun b => (moveRaw d r).pos b - axes (moveMesh d m).boxCenter b) = fun b => r.pos b - axes m.boxCenter b := by
      funext b
      show r.pos b + axes d b - axes (List.zipWith (· + ·) m.boxCenter d) b = _
      rw [axes_add _ _ hd]; ring
    rw [this]
    rfl
  unfold amplitude
  show _ * _ * (total w (moveMesh d m) (fun _ => 1) k ((mc.cats m.source).data.map (·.map (moveRaw d))) - _ *
    total w (moveMesh d m) (fun _ => 1) k ((mc.cats m.source).randoms.map (·.map (moveRaw d)))) = _
  rw [key, key]
  rfl

theorem jointBox_move (d : List ℚ) (m1 m2 : ConvObj.Mesh) (h1 : m1.boxCenter.length = d.length) (h2 : m2.boxCenter.length = d.length) :
    ConvObj.jointBox (moveMesh d m1) (moveMesh d m2) =
      ((ConvObj.jointBox m1 m2).1, List.zipWith (· + ·) (ConvObj.jointBox m1 m2).2 d) := by
  have key : ∀ (s1 c1 s2 c2 d : List ℚ), c1.length = d.length → c2.length = d.length →
      (List.zipWith (fun (p q : ℚ × ℚ) => Fkp.jointAxis p.1 p.2 q.1 q.2) (s1.zip (List.zipWith (· + ·) c1 d)) (s2.zip (List.zipWith (· + ·) c2 d))).map Prod.fst =
        (List.zipWith (fun (p q : ℚ × ℚ) => Fkp.jointAxis p.1 p.2 q.1 q.2) (s1.zip c1) (s2.zip c2)).map Prod.fst ∧
      (List.zipWith (fun (p q : ℚ × ℚ) => Fkp.jointAxis p.1 p.2 q.1 q.2) (s1.zip (List.zipWith (· + ·) c1 d)) (s2.zip (List.zipWith (· + ·) c2 d))).map Prod.snd =
        List.zipWith (· + ·) ((List.zipWith (fun (p q : ℚ × ℚ) => Fkp.jointAxis p.1 p.2 q.1 q.2) (s1.zip c1) (s2.zip c2)).map Prod.snd) d := by
    intro s1 c1 s2 c2 d
    induction d generalizing s1 c1 s2 c2 with
    | nil => intro h1 h2; simp at h1 h2; subst h1 h2; simp
    | cons x d ih =>
      intro h1 h2
      cases c1 with
      | nil => simp at h1
      | cons y c1 =>
        cases c2 with
        | nil => simp at h2
        | cons z c2 =>
          cases s1 with
          | nil => simp
          | cons u s1 =>
            cases s2 with
            | nil => simp
            | cons v s2 =>
              obtain ⟨i1, i2⟩ := ih s1 c1 s2 c2 (by simpa using h1) (by simpa using h2)
              simp only [List.zipWith_cons_cons, List.zip_cons_cons, List.map_cons, i1, i2]
              unfold Fkp.jointAxis
              split <;> exact ⟨rfl, rfl⟩
  have := key m1.boxSize m1.boxCenter m2.boxSize m2.boxCenter d h1 h2
  unfold ConvObj.jointBox moveMesh
  exact Prod.ext this.1 this.2

theorem joint_length (m1 m2 : ConvObj.Mesh) (N : Nat) (h1 : m1.boxCenter.length = N) (h2 : m2.boxCenter.length = N) (h3 : m1.boxSize.length = N)
    (h4 : m2.boxSize.length = N) : (ConvObj.jointBox m1 m2).2.length = N := by
  unfold ConvObj.jointBox
  simp [h1, h2, h3, h4]

theorem final_move (d : List ℚ) (m1 m2 m : ConvObj.Mesh) (h1 : m1.boxCenter.length = d.length) (h2 : m2.boxCenter.length = d.length) :
    final (moveMesh d m1) (moveMesh d m2) (moveMesh d m) = moveMesh d (final m1 m2 m) := by
  unfold final
  have hb : (moveMesh d m1).boxSize = m1.boxSize := rfl
  have hb2 : (moveMesh d m2).boxSize = m2.boxSize := rfl
  rw [hb, hb2]
  by_cases h : m1.boxSize = m2.boxSize
  · rw [if_pos h, if_pos h]; rfl
  · rw [if_neg h, if_neg h, jointBox_move d m1 m2 h1 h2]; rfl

/-- C137: the monopole does not change if all objects and the boxes of the meshes are moved together; nor do `alpha`, the norms, the shot noise and the edges. -/
theorem monopole_moved (w : World n K) (leg : List ℚ → Nat → Fin n → Fin n → K) (hl : Legendre w leg) (mc : Machine n) (d : List ℚ) (hd : d.length = 3)
    (h : ConvObj.Heap) (g : ConvObj.Args) (hg : g.poles.list = [0]) (h1 h2 : ConvObj.Heap) (o o' : ConvObj.Obj) (hk : call w mc h g = (h1, .ok o))
    (hk' : call w (moveCats d mc) (h.map (moveMesh d)) g = (h2, .ok o')) (i j : Nat) (n1 n2 : ConvObj.Mesh) (hi : h[i]? = some n1) (hj : h[j]? = some n2)
    (hb : n1.boxSize.length = 3 ∧ n1.boxCenter.length = 3 ∧ n2.boxSize.length = 3 ∧ n2.boxCenter.length = 3) (hf : g.first = .mesh i)
    (hs : g.second = some (.mesh j) ∨ (g.second = none ∧ j = i)) (a : ℚ) (ha : o.attrs.alpha = some a) :
    o'.attrs.alpha = o.attrs.alpha ∧ o'.attrs.dataNorm = o.attrs.dataNorm ∧ o'.attrs.randomsNorm = o.attrs.randomsNorm ∧
    o'.attrs.shotnoise = o.attrs.shotnoise ∧ o'.edges = o.edges ∧ o'.poles.data = o.poles.data := by
  obtain ⟨p1, p2⟩ := call_meshes w mc h g h1 o hk i j n1 n2 hi hj hf hs
  obtain ⟨p1', p2'⟩ := call_meshes w (moveCats d mc) (h.map (moveMesh d)) g h2 o' hk' i j (moveMesh d n1) (moveMesh d n2) (by rw [List.getElem?_map, hi]; rfl)
    (by rw [List.getElem?_map, hj]; rfl) hf hs
  rw [final_move d _ _ _ (by omega) (by omega)] at p1' p2'
  obtain ⟨r1, r2, m1, m2, norm, ed, a1, a2, a3, a4, a5, a6, a7, a8, a9, ⟨cs, a10⟩, a11, a12, a13, a14⟩ := call_direct w mc leg hl h g h1 o hk
  obtain ⟨s1, s2, M1, M2, norm', ed', b1, b2, b3, b4, b5, b6, b7, b8, b9, ⟨cs', b10⟩, b11, b12, b13, b14⟩ :=
    call_direct w (moveCats d mc) leg hl (h.map (moveMesh d)) g h2 o' hk'
  have e1 : r1 = i := a3 i hf
  have e2 : s1 = i := b3 i hf
  have e3 : r2 = j := by
    rcases hs with hs | ⟨hs, hj⟩
    · exact a4 j hs
    · rw [a5 hs, e1, hj]
  have e4 : s2 = j := by
    rcases hs with hs | ⟨hs, hj⟩
    · exact b4 j hs
    · rw [b5 hs, e2, hj]
  subst e1
  rw [e2] at b1
  rw [e3] at a2
  rw [e4] at b2
  rw [p1] at a1; rw [p2] at a2; rw [p1'] at b1; rw [p2'] at b2
  cases a1; cases a2; cases b1; cases b2
  have hlen : ∀ m : ConvObj.Mesh, m.boxCenter.length = 3 → (final n1 n2 m).boxCenter.length = d.length := by
    intro m hm
    unfold final
    by_cases hbx : n1.boxSize = n2.boxSize
    · rw [if_pos hbx]; show m.boxCenter.length = _; omega
    · rw [if_neg hbx]
      show (ConvObj.jointBox n1 n2).2.length = _
      rw [joint_length n1 n2 3 (by omega) (by omega) (by omega) (by omega)]; omega
  have l1 := hlen n1 (by omega)
  have l2 := hlen n2 (by omega)
  have hv : ConvObj.validCross (final n1 n2 n1) (final n1 n2 n2) = true := by
    apply (ConvObj.valid_iff _ _).mpr
    refine ⟨a7, a8, a9, ?_⟩
    obtain ⟨t1, t2, N1, N2, _, _, _, u1, u2, u3, u4, u5, _, _, _, _, _, _, _, u13, _⟩ := ConvObj.result_spec _ (consistent w mc) _ _ _ _ hk
    have v1 : t1 = r1 := u3 r1 (by dsimp only; rw [hf]; rfl)
    have v2 : t2 = j := by
      rcases hs with hs | ⟨hs, hj⟩
      · exact u4 j (by dsimp only; rw [hs]; rfl)
      · rw [u5 (by dsimp only; rw [hs]; rfl), v1, hj]
    rw [v1, p1] at u1
    rw [v2, p2] at u2
    cases u1
    cases u2
    exact u13
  generalize hm1 : final n1 n2 n1 = m1 at *
  generalize hm2 : final n1 n2 n2 = m2 at *
  have hbins : ConvObj.kBins (envOf w (moveCats d mc)) (moveMesh d m1) ⟨g.poles.list, g.dk, g.kmin, g.kmax, (moveMesh d m1).nmesh, (moveMesh d m1).boxSize,
      (moveMesh d m1).boxPad, (moveMesh d m1).boxCenter, (moveMesh d m1).resampler, (moveMesh d m1).interlaced⟩ =
      ConvObj.kBins (envOf w mc) m1 ⟨g.poles.list, g.dk, g.kmin, g.kmax, m1.nmesh, m1.boxSize, m1.boxPad, m1.boxCenter, m1.resampler, m1.interlaced⟩ := by
    unfold ConvObj.kBins
    rfl
  rw [hbins, a10] at b10
  cases b10
  have hsum : ∀ (f f' : Raw → Fkp.Row) (m : ConvObj.Mesh), (∀ r, (f r).sel = r.flag m.selection) → (∀ r, (f' (moveRaw d r)).sel = (f r).sel) →
      ∀ (g : Fkp.Row → ℚ), (∀ r, g (f' (moveRaw d r)) = g (f r)) → ∀ rows : List (List Raw),
      Fkp.allSum ⟨(rows.map (·.map (moveRaw d))).map (·.map f'), true, true⟩ g = Fkp.allSum ⟨rows.map (·.map f), true, true⟩ g := by
    intro f f' m hf hf' g hg rows
    rw [Fkp.allSum_eq, Fkp.allSum_eq, all_map, all_map, flatten_move, List.map_map]
    generalize rows.flatten = l
    induction l with
    | nil => rfl
    | cons r l ih =>
      simp only [List.map_cons, List.filter_cons, Function.comp_apply, hf']
      split
      · simp only [List.map_cons, List.sum_cons, ih, hg]
      · exact ih
  have hal : ∀ m, Fkp.alpha (meshOf (moveCats d mc) (moveMesh d m)).cat = Fkp.alpha (meshOf mc m).cat := by
    intro m
    have hw : ∀ rows : List (List Raw), Fkp.weightedTotal ⟨(rows.map (·.map (moveRaw d))).map (·.map (rowOf (moveMesh d m))), true, true⟩ =
        Fkp.weightedTotal ⟨rows.map (·.map (rowOf m)), true, true⟩ :=
      fun rows => hsum (rowOf m) (rowOf (moveMesh d m)) m (fun _ => rfl) (fun _ => rfl) _ (fun _ => rfl) rows
    unfold Fkp.alpha meshOf catOf
    show (if Fkp.weightedTotal ⟨((mc.cats m.source).randoms.map (·.map (moveRaw d))).map (·.map (rowOf (moveMesh d m))), true, true⟩ = 0 then none else
      some (Fkp.weightedTotal ⟨((mc.cats m.source).data.map (·.map (moveRaw d))).map (·.map (rowOf (moveMesh d m))), true, true⟩ /
        Fkp.weightedTotal ⟨((mc.cats m.source).randoms.map (·.map (moveRaw d))).map (·.map (rowOf (moveMesh d m))), true, true⟩)) = _
    rw [hw, hw]
  have ha1 : Fkp.alpha (meshOf mc m1).cat = some a := by rw [← a12]; exact ha
  have ha2 : Fkp.alpha (meshOf mc m2).cat = some a := by
    have := (same_alpha mc m1 m2 hv []).1
    show (metaOf mc m2 []).alpha = some a
    rw [← this]; exact ha1
  obtain ⟨c1, c2, c3⟩ := a14 a a (.inl ha1) (.inl ha2)
  obtain ⟨d1, d2, d3⟩ := b14 a a (.inl (by rw [hal]; exact ha1)) (.inl (by rw [hal]; exact ha2))
  have hch : ∀ rows : List (List Raw), ((chosen (moveMesh d m1) (rows.map (·.map (moveRaw d)))).map fun r =>
      r.num (moveMesh d m2).nbar * r.num (moveMesh d m1).compWeight * r.num (moveMesh d m1).fkpWeight * r.num (moveMesh d m2).fkpWeight).sum =
      ((chosen m1 rows).map fun r => r.num m2.nbar * r.num m1.compWeight * r.num m1.fkpWeight * r.num m2.fkpWeight).sum := by
    intro rows
    rw [chosen_move d m1 (moveMesh d m1) rfl, List.map_map]
    rfl
  have hdn : o'.attrs.dataNorm = o.attrs.dataNorm := by
    rw [c1, d1]
    exact congrArg some (hch _)
  have hrn : o'.attrs.randomsNorm = o.attrs.randomsNorm := by
    rw [c2, d2]
    exact congrArg (fun x => some (a * x)) (hch _)
  have halp : o'.attrs.alpha = o.attrs.alpha := by rw [b12, a12, hal]
  have hshot : o'.attrs.shotnoise = o.attrs.shotnoise := by
    rw [a11, b11, hrn, halp]
    unfold shotOf Fkp.shotnoise
    dsimp only
    have e1 : ∀ rows : List (List Raw), Fkp.allSum ⟨(rows.map (·.map (moveRaw d))).map (·.map (pairRow (moveMesh d m1) (moveMesh d m2))), true, true⟩
        (fun r => r.comp ^ 2 * r.fkp * r.val) = Fkp.allSum ⟨rows.map (·.map (pairRow m1 m2)), true, true⟩ (fun r => r.comp ^ 2 * r.fkp * r.val) :=
      fun rows => hsum (pairRow m1 m2) (pairRow (moveMesh d m1) (moveMesh d m2)) m1 (fun _ => rfl) (fun _ => rfl) _ (fun _ => rfl) rows
    have f1 := e1 (mc.cats m1.source).data
    have f2 := e1 (mc.cats m1.source).randoms
    change Fkp.allSum (pairOf (moveCats d mc) (moveMesh d m1) (moveMesh d m2)).data _ = Fkp.allSum (pairOf mc m1 m2).data _ at f1
    change Fkp.allSum (pairOf (moveCats d mc) (moveMesh d m1) (moveMesh d m2)).randoms _ = Fkp.allSum (pairOf mc m1 m2).randoms _ at f2
    rw [f1, f2]
  rw [hdn, hrn, a13] at b13
  cases b13
  refine ⟨halp, hdn, hrn, hshot, by rw [a6, b6], ?_⟩
  rw [c3, d3, hg]
  have hpow : powerAt w (moveCats d mc) leg (moveMesh d m1) (moveMesh d m2) a a norm 0 = powerAt w mc leg m1 m2 a a norm 0 := by
    funext q
    unfold powerAt
    have hL : ∀ off, leg off 0 q = fun _ => 1 := fun off => funext fun x => hl.zero _ _ _
    rw [hL, hL]
    have s1 : (moveMesh d m1).source = m1.source := rfl
    have s2 : (moveMesh d m2).source = m2.source := rfl
    have s3 : (moveMesh d m1).pmBox = m1.pmBox := rfl
    rw [s1, s2, s3, amplitude_move w mc d m1 l1, amplitude_move w mc d m2 l2]
  have hs0 : ([0] : List Nat).insertionSort (· ≤ ·) = [0] := rfl
  rw [hs0]
  simp only [List.flatMap_cons, List.flatMap_nil, hpow]
  rfl

end NBK.Survey
