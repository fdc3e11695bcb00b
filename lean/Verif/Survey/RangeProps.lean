import Verif.Survey.PolesProps
import Verif.FftObj.RangeProps

/-!
# `ConvolvedFFTPower` of catalogs (C137): a larger `kmax` adds rows and changes none
-/
set_option linter.unusedSimpArgs false
set_option synthInstance.maxSize 1000
namespace NBK.Survey
open NBK

variable {n : Nat} {K : Type} [CommRing K] [Algebra ℚ K]

/-- The cosines of the modes are at most 1. -/
def Cosines (w : World n K) : Prop := ∀ box nmesh k, (w.coord box nmesh k).mu ≤ 1

open Classical in
theorem project_cut (w : World n K) (hc : Cosines w) (mc : Machine n) (box : List ℚ) (nmesh : List Nat) (a b b' d : ℚ) (hd : 0 < d) (ha : 0 ≤ a) (hb : b ≤ b')
    (f : Fin n → K) (i : Nat) (hi : i + 1 < (FftObj.arange a b d).length) :
    project w mc box nmesh (FftObj.arange a b d) f i = project w mc box nmesh (FftObj.arange a b' d) f i := by
  have hle : ∀ m ∈ Project.modes (modesOf w mc box nmesh f), ∀ e, ([-1, 1] : List ℚ).getLast? = some e → m.mu ≤ e := by
    intro m hm e he
    cases he
    unfold Project.modes modesOf at hm
    simp only [List.mem_flatten, List.mem_map] at hm
    grind [Cosines]
  have hl := FftObj.arange_le a b b' d hd hb
  have hs : ([-1, 1] : List ℚ).Pairwise (· < ·) := by simp
  unfold project
  rw [Project.project_2d_partial w.hermitian _ _ (FftObj.arange_sq a b d hd ha) hs _ hle [] i 0 (by simpa using hi) (by simp),
    Project.project_2d_partial w.hermitian _ _ (FftObj.arange_sq a b' d hd ha) hs _ hle [] i 0 (by rw [List.length_map]; omega) (by simp)]
  have : ((Project.modes (modesOf w mc box nmesh f)).filter fun m => decide (Project.InBin ((FftObj.arange a b d).map (· ^ 2)) i m.x2 ∧ Project.InMuBin [-1, 1] 0 m.mu)) =
      (Project.modes (modesOf w mc box nmesh f)).filter fun m => decide (Project.InBin ((FftObj.arange a b' d).map (· ^ 2)) i m.x2 ∧ Project.InMuBin [-1, 1] 0 m.mu) := by
    apply List.filter_congr
    intro m _
    rw [decide_eq_decide, FftObj.inBin_prefix _ _ ((FftObj.arange_prefix a b b' d hd hb).map _) i (by simpa using hi)]
  rw [this]

theorem project_prefix {β : Type} (w : World n K) (hc : Cosines w) (mc : Machine n) (box : List ℚ) (nmesh : List Nat) (a b b' d : ℚ) (hd : 0 < d) (ha : 0 ≤ a) (hb : b ≤ b')
    (f : Fin n → K) (u : Option ℚ × Option ℚ × Option ℚ × Option ℚ × ℚ → β) :
    ((List.range ((FftObj.arange a b d).length - 1)).map fun i => u (project w mc box nmesh (FftObj.arange a b d) f i)) <+:
      ((List.range ((FftObj.arange a b' d).length - 1)).map fun i => u (project w mc box nmesh (FftObj.arange a b' d) f i)) := by
  have hl := FftObj.arange_le a b b' d hd hb
  apply FftObj.map_prefix _ _ (FftObj.range_prefix _ _ (by omega))
  intro i hi
  rw [List.mem_range] at hi
  rw [project_cut w hc mc box nmesh a b b' d hd ha hb f i (by omega)]

/-- C137: two runs that differ only in `kmax`, with bins of one width: `alpha`, norms and shot noise are the same, the edges with the smaller `kmax` are the
first edges with the larger one, and every column of its table begins with the rows of the smaller one. -/
theorem kmax_cuts (w : World n K) (hc : Cosines w) (leg : List ℚ → Nat → Fin n → Fin n → K) (hl : Legendre w leg) (mc : Machine n) (h : ConvObj.Heap)
    (g : ConvObj.Args) (d b b' : ℚ) (hdk : g.dk = some d) (hd : 0 < d) (hmin : 0 ≤ g.kmin) (hb : b ≤ b') (h1 h2 : ConvObj.Heap) (o o' : ConvObj.Obj)
    (hk : call w mc h { g with kmax := some b } = (h1, .ok o)) (hk' : call w mc h { g with kmax := some b' } = (h2, .ok o'))
    (i j : Nat) (n1 n2 : ConvObj.Mesh) (hi : h[i]? = some n1) (hj : h[j]? = some n2) (hf : g.first = .mesh i)
    (hs : g.second = some (.mesh j) ∨ (g.second = none ∧ j = i)) (a : ℚ) (ha : o.attrs.alpha = some a) :
    o'.attrs.alpha = o.attrs.alpha ∧ o'.attrs.dataNorm = o.attrs.dataNorm ∧ o'.attrs.randomsNorm = o.attrs.randomsNorm ∧
    o'.attrs.shotnoise = o.attrs.shotnoise ∧ (∃ ed ed', o.edges = some ed ∧ o'.edges = some ed' ∧ ed <+: ed') ∧
    List.Forall₂ FftObj.Shorter o.poles.data o'.poles.data := by
  obtain ⟨p1, p2⟩ := call_meshes w mc h { g with kmax := some b } h1 o hk i j n1 n2 hi hj hf hs
  obtain ⟨p1', p2'⟩ := call_meshes w mc h { g with kmax := some b' } h2 o' hk' i j n1 n2 hi hj hf hs
  obtain ⟨r1, r2, m1, m2, norm, ed, a1, a2, a3, a4, a5, a6, a7, a8, a9, ⟨cs, a10⟩, a11, a12, a13, a14⟩ := call_direct w mc leg hl h { g with kmax := some b } h1 o hk
  obtain ⟨s1, s2, M1, M2, norm', ed', b1, b2, b3, b4, b5, b6, b7, b8, b9, ⟨cs', b10⟩, b11, b12, b13, b14⟩ :=
    call_direct w mc leg hl h { g with kmax := some b' } h2 o' hk'
  have e1 : r1 = i := a3 i hf
  have e2 : s1 = i := b3 i hf
  have e3 : r2 = j := by
    rcases hs with hs | ⟨hs, hj⟩
    · exact a4 j hs
    · rw [a5 hs, e1, hj]
  have e4 : s2 = j := by
    rcases hs with hs | ⟨hs, hj⟩
    · exact b4 j hs
    · rw [b5 hs, e2, hj]
  subst e1
  rw [e2] at b1
  rw [e3] at a2
  rw [e4] at b2
  rw [p1] at a1; rw [p2] at a2; rw [p1'] at b1; rw [p2'] at b2
  cases a1; cases a2; cases b1; cases b2
  generalize hm1 : final n1 n2 n1 = m1 at *
  generalize hm2 : final n1 n2 n2 = m2 at *
  have bins : ∀ (c : ℚ) (e : List ℚ) (s : Option (List ℚ)), ConvObj.kBins (envOf w mc) m1 ⟨g.poles.list, g.dk, g.kmin, some c, m1.nmesh, m1.boxSize, m1.boxPad,
      m1.boxCenter, m1.resampler, m1.interlaced⟩ = .ok (e, s) → e = FftObj.arange g.kmin c d := by
    intro c e s he
    unfold ConvObj.kBins at he
    dsimp only at he
    rw [hdk, FftObj.xBins_pos _ .power _ _ (by exact hd)] at he
    exact (Prod.mk.inj (Except.ok.inj he)).1.symm
  have x1 := bins b ed cs a10
  have x2 := bins b' ed' cs' b10
  subst x1; subst x2
  have ha1 : Fkp.alpha (meshOf mc m1).cat = some a := by rw [← a12]; exact ha
  have ha2 : Fkp.alpha (meshOf mc m2).cat = some a := by
    have hv : ConvObj.validCross m1 m2 = true := by
      apply (ConvObj.valid_iff m1 m2).mpr
      refine ⟨a7, a8, a9, ?_⟩
      obtain ⟨t1, t2, N1, N2, _, _, _, u1, u2, u3, u4, u5, _, _, _, _, _, _, _, u13, _⟩ := ConvObj.result_spec _ (consistent w mc) _ _ _ _ hk
      have v1 : t1 = r1 := u3 r1 (by dsimp only; rw [hf]; rfl)
      have v2 : t2 = j := by
        rcases hs with hs | ⟨hs, hj⟩
        · exact u4 j (by dsimp only; rw [hs]; rfl)
        · rw [u5 (by dsimp only; rw [hs]; rfl), v1, hj]
      rw [v1, p1] at u1
      rw [v2, p2] at u2
      cases u1
      cases u2
      exact u13
    have := (same_alpha mc m1 m2 hv []).1
    show (metaOf mc m2 []).alpha = some a
    rw [← this]; exact ha1
  obtain ⟨c1, c2, c3⟩ := a14 a a (.inl ha1) (.inl ha2)
  obtain ⟨d1, d2, d3⟩ := b14 a a (.inl ha1) (.inl ha2)
  have hal : o'.attrs.alpha = o.attrs.alpha := by rw [a12, b12]
  have hdn : o'.attrs.dataNorm = o.attrs.dataNorm := by rw [c1, d1]
  have hrn : o'.attrs.randomsNorm = o.attrs.randomsNorm := by rw [c2, d2]
  rw [hdn, hrn, a13] at b13
  cases b13
  refine ⟨hal, hdn, hrn, by rw [a11, b11, hal, hrn], ⟨_, _, a6, b6, FftObj.arange_prefix _ _ _ _ hd hb⟩, ?_⟩
  rw [c3, d3]
  apply List.rel_append
  · apply List.rel_append
    · exact List.Forall₂.cons ⟨rfl, rfl, project_prefix w hc mc _ _ _ b b' d hd hmin hb _ fun r => FftObj.val r.1⟩ List.Forall₂.nil
    · have mid : ∀ (l : List Nat) (f g : Nat → List Binned.Col), (∀ x, List.Forall₂ FftObj.Shorter (f x) (g x)) →
          List.Forall₂ FftObj.Shorter (l.flatMap f) (l.flatMap g) := by
        intro l f g h
        induction l with
        | nil => exact List.Forall₂.nil
        | cons x l ih =>
          rw [List.flatMap_cons, List.flatMap_cons]
          exact List.rel_append (h x) ih
      apply mid
      intro ell
      have hp := project_prefix w hc mc m1.pmBox m1.nmesh g.kmin b b' d hd hmin hb (powerAt w mc leg m1 m2 a a norm ell) fun r => (r.2.2.1, r.2.2.2.1)
      unfold cols averages
      exact List.Forall₂.cons ⟨rfl, rfl, hp.map _⟩ (List.Forall₂.cons ⟨rfl, rfl, hp.map _⟩ List.Forall₂.nil)
  · exact List.Forall₂.cons ⟨rfl, rfl, project_prefix w hc mc _ _ _ b b' d hd hmin hb _ fun r => FftObj.val (some r.2.2.2.2)⟩ List.Forall₂.nil

/-- C137: the hypotheses of `kmax_cuts` hold: the table up to 3, and that up to 2 with a row less. -/
theorem cut_case : (call world machA [meshA] { gM with kmax := some 3 }).2.toOption.map (fun o => (o.attrs.alpha, o.edges, o.poles.data.map fun c => (c.name, c.vals))) =
      some (some (1 / 2), some [0, 1, 2],
        [("k", [.fin 0, .fin 1]), ("power_0.real", [.fin 0, .fin 16]), ("power_0.imag", [.fin 0, .fin 0]), ("modes", [.fin 1, .fin 1])]) ∧
    (call world machA [meshA] { gM with kmax := some 2 }).2.toOption.map (fun o => (o.attrs.alpha, o.edges, o.poles.data.map fun c => (c.name, c.vals))) =
      some (some (1 / 2), some [0, 1], [("k", [.fin 0]), ("power_0.real", [.fin 0]), ("power_0.imag", [.fin 0]), ("modes", [.fin 1])]) ∧ Cosines world := by
  refine ⟨by decide +kernel, by decide +kernel, fun _ _ _ => by show (0 : ℚ) ≤ 1; norm_num⟩

end NBK.Survey
