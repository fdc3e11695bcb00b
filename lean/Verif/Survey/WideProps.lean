import Verif.Survey.RangeProps
import Verif.FftObj.WideProps

/-!
# `ConvolvedFFTPower` of catalogs (C137): bins `c` times as wide hold the modes of `c` bins
-/
set_option linter.unusedSimpArgs false
set_option synthInstance.maxSize 1000
namespace NBK.Survey
open NBK

variable {n : Nat} {K : Type} [CommRing K] [Algebra ℚ K]

/-- Wavenumbers, cosines and weights of modes. -/
def Fair (w : World n K) : Prop := ∀ box nmesh k, 0 ≤ (w.coord box nmesh k).x ∧ (w.coord box nmesh k).x2 = (w.coord box nmesh k).x ^ 2 ∧
  -1 ≤ (w.coord box nmesh k).mu ∧ (w.coord box nmesh k).mu ≤ 1 ∧ 0 < (w.coord box nmesh k).w

/-- The modes of the ranks with wavenumbers in a range. -/
def shell (w : World n K) (mc : Machine n) (box : List ℚ) (nmesh : List Nat) (f : Fin n → K) (lo hi : ℚ) : List Project.Mode :=
  (Project.modes (modesOf w mc box nmesh f)).filter fun m => decide (lo ≤ m.x ∧ m.x < hi ∧ True)

theorem shell_weight (w : World n K) (mc : Machine n) (box : List ℚ) (nmesh : List Nat) (f g : Fin n → K) (lo hi : ℚ) (u : Project.Mode → ℚ)
    (hu : ∀ (m : Project.Mode) y, u { m with y := y } = u m) :
    ((shell w mc box nmesh f lo hi).map u).sum = ((shell w mc box nmesh g lo hi).map u).sum := by
  unfold shell
  rw [modes_flat, modes_flat, List.filter_map, List.filter_map, List.map_map, List.map_map]
  congr 1
  have : ∀ f g : Fin n → K, (fun k => u { w.coord box nmesh k with y := ⟨w.re (f k), w.im (f k)⟩ }) = fun k => u { w.coord box nmesh k with y := ⟨w.re (g k), w.im (g k)⟩ } := by
    intro f g
    funext k
    exact (hu (w.coord box nmesh k) _).trans (hu (w.coord box nmesh k) _).symm
  have h2 := this f g
  show List.map (fun k => u { w.coord box nmesh k with y := ⟨w.re (f k), w.im (f k)⟩ }) _ = List.map (fun k => u { w.coord box nmesh k with y := ⟨w.re (g k), w.im (g k)⟩ }) _
  rw [h2]
  rfl

theorem shell_good (w : World n K) (hw : Fair w) (mc : Machine n) (box : List ℚ) (nmesh : List Nat) (f : Fin n → K) (m : Project.Mode)
    (hm : m ∈ Project.modes (modesOf w mc box nmesh f)) : 0 ≤ m.x ∧ m.x2 = m.x ^ 2 ∧ -1 ≤ m.mu ∧ m.mu ≤ 1 ∧ 0 < m.w := by
  rw [modes_flat, List.mem_map] at hm
  obtain ⟨k, _, rfl⟩ := hm
  exact hw box nmesh k

/-- A bin holds the averages over its modes. -/
theorem project_shell (w : World n K) (hw : Fair w) (mc : Machine n) (box : List ℚ) (nmesh : List Nat) (a b d : ℚ) (hd : 0 < d) (ha : 0 ≤ a) (f : Fin n → K) (i : Nat)
    (hi : i + 1 < (FftObj.arange a b d).length) :
    let l := shell w mc box nmesh f (a + i * d) (a + (i + 1) * d)
    let r := project w mc box nmesh (FftObj.arange a b d) f i
    r.1 = Project.mean (fun m => m.x * m.w) l ∧
    r.2.2.1 = Project.mean (fun m => if w.hermitian ∧ m.nonsingular then 2 * m.y.re else m.y.re) l ∧
    r.2.2.2.1 = Project.mean (fun m => if w.hermitian ∧ m.nonsingular then 0 else m.y.im) l ∧ r.2.2.2.2 = (l.map fun m => (m.w : ℚ)).sum := by
  classical
  intro l r
  have hle : ∀ m ∈ Project.modes (modesOf w mc box nmesh f), ∀ e, ([-1, 1] : List ℚ).getLast? = some e → m.mu ≤ e := by
    intro m hm e he
    cases he
    exact (shell_good w hw mc box nmesh f m hm).2.2.2.1
  have hs : ([-1, 1] : List ℚ).Pairwise (· < ·) := by simp
  have hr : r = _ := Project.project_2d_partial w.hermitian _ _ (FftObj.arange_sq a b d hd ha) hs _ hle [] i 0 (by simpa using hi) (by simp)
  have hl : ((Project.modes (modesOf w mc box nmesh f)).filter fun m => decide (Project.InBin ((FftObj.arange a b d).map (· ^ 2)) i m.x2 ∧ Project.InMuBin [-1, 1] 0 m.mu)) = l := by
    apply List.filter_congr
    intro m hm
    obtain ⟨g1, g2, g3, g4, _⟩ := shell_good w hw mc box nmesh f m hm
    rw [decide_eq_decide, g2]
    have hb := Project.bin_squared (FftObj.arange a b d) (by
      intro q hq
      obtain ⟨t, ht, rfl⟩ := List.mem_iff_getElem.mp hq
      rw [FftObj.arange_get]; positivity) m.x g1 i
    have hmu : Project.InMuBin [-1, 1] 0 m.mu := by
      rcases lt_or_eq_of_le g4 with h | h
      · exact .inl ⟨-1, 1, rfl, rfl, g3, h⟩
      · exact .inr ⟨rfl, by rw [h]; rfl⟩
    rw [hb]
    unfold Project.InBin
    rw [List.getElem?_eq_getElem (by omega), List.getElem?_eq_getElem hi, FftObj.arange_get, FftObj.arange_get]
    constructor
    · rintro ⟨⟨lo, up, e1, e2, e3, e4⟩, _⟩
      cases e1; cases e2; push_cast at e4; exact ⟨e3, e4, trivial⟩
    · rintro ⟨e3, e4, _⟩
      exact ⟨⟨_, _, rfl, rfl, e3, by push_cast; exact e4⟩, hmu⟩
  rw [hl] at hr
  rw [hr]
  exact ⟨rfl, rfl, rfl, rfl⟩

/-- The number in a row of a column. -/
def num (c : Binned.Col) (r : Nat) : ℚ := FftObj.toQ (c.vals.getD r .nan)

theorem num_range (s : String) (t : Bool) (m : Nat) (u : Nat → Binned.Val) (i : Nat) (hi : i < m) : num ⟨s, t, (List.range m).map u⟩ i = FftObj.toQ (u i) := by
  unfold num
  rw [List.getD_eq_getElem?_getD, List.getElem?_map, List.getElem?_range hi]
  rfl

theorem project_wide (w : World n K) (hw : Fair w) (mc : Machine n) (box : List ℚ) (nmesh : List Nat) (a b d : ℚ) (hd : 0 < d) (ha : 0 ≤ a) (c : Nat) (hc : 0 < c)
    (f : Fin n → K) (i : Nat) (hi : i + 1 < (FftObj.arange a b (c * d)).length) (u : Option ℚ × Option ℚ × Option ℚ × Option ℚ × ℚ → Option ℚ)
    (hu : u = (fun r => r.1) ∨ u = (fun r => r.2.2.1) ∨ u = fun r => r.2.2.2.1) :
    (∀ s, s < c → c * i + s + 1 < (FftObj.arange a b d).length) ∧
    (project w mc box nmesh (FftObj.arange a b (c * d)) (fun _ => 0) i).2.2.2.2 =
      ((List.range c).map fun s => (project w mc box nmesh (FftObj.arange a b d) (fun _ => 0) (c * i + s)).2.2.2.2).sum ∧
    FftObj.toQ (FftObj.val (u (project w mc box nmesh (FftObj.arange a b (c * d)) f i))) *
        (project w mc box nmesh (FftObj.arange a b (c * d)) (fun _ => 0) i).2.2.2.2 =
      ((List.range c).map fun s => FftObj.toQ (FftObj.val (u (project w mc box nmesh (FftObj.arange a b d) f (c * i + s)))) *
        (project w mc box nmesh (FftObj.arange a b d) (fun _ => 0) (c * i + s)).2.2.2.2).sum := by
  have hc' : (0 : ℚ) < c := by exact_mod_cast hc
  have hcd : 0 < (c : ℚ) * d := by positivity
  have hlast := (FftObj.arange_length a b (c * d) hcd (i + 1)).mp hi
  have hfine : ∀ s, s < c → c * i + s + 1 < (FftObj.arange a b d).length := by
    intro s hs
    apply (FftObj.arange_length a b d hd _).mpr
    have : ((s : ℚ) + 1) ≤ c := by exact_mod_cast hs
    push_cast at hlast ⊢
    nlinarith
  have split : ∀ (f : Fin n → K) (v : Project.Mode → ℚ), ((shell w mc box nmesh f (a + i * (c * d)) (a + (i + 1) * (c * d))).map v).sum =
      ((List.range c).map fun s => ((shell w mc box nmesh f (a + ((c * i + s : Nat) : ℚ) * d) (a + (((c * i + s : Nat) : ℚ) + 1) * d)).map v).sum).sum := by
    intro f v
    have h := FftObj.wide_sum (Project.modes (modesOf w mc box nmesh f)) (fun _ => True) (a + i * (c * d)) d hd v c
    rw [show a + i * (c * d) + c * d = a + (i + 1) * (c * d) by ring] at h
    unfold shell
    refine Eq.trans (Eq.trans ?_ h) ?_
    · congr 2
      apply List.filter_congr
      intro m _
      rw [decide_eq_decide]
    · congr 1
      apply List.map_congr_left
      intro s _
      rw [show a + i * (c * d) + s * d = a + ((c * i + s : Nat) : ℚ) * d by push_cast; ring,
        show a + i * (c * d) + (s + 1) * d = a + (((c * i + s : Nat) : ℚ) + 1) * d by push_cast; ring]
      congr 2
      apply List.filter_congr
      intro m _
      rw [decide_eq_decide]
  have hW : ∀ f lo hi, ∀ m ∈ shell w mc box nmesh f lo hi, 0 < m.w := fun f lo hi m hm =>
    (shell_good w hw mc box nmesh f m (List.mem_filter.mp hm).1).2.2.2.2
  have coarse := fun g => project_shell w hw mc box nmesh a b (c * d) hcd ha g i hi
  have fine := fun g s (hs : s < c) => project_shell w hw mc box nmesh a b d hd ha g (c * i + s) (hfine s hs)
  have col : ∀ (v : Project.Mode → ℚ),
      u (project w mc box nmesh (FftObj.arange a b (c * d)) f i) = Project.mean v (shell w mc box nmesh f (a + i * (c * d)) (a + (i + 1) * (c * d))) →
      (∀ s, s < c → u (project w mc box nmesh (FftObj.arange a b d) f (c * i + s)) =
        Project.mean v (shell w mc box nmesh f (a + ((c * i + s : Nat) : ℚ) * d) (a + (((c * i + s : Nat) : ℚ) + 1) * d))) →
      FftObj.toQ (FftObj.val (u (project w mc box nmesh (FftObj.arange a b (c * d)) f i))) *
          (project w mc box nmesh (FftObj.arange a b (c * d)) (fun _ => 0) i).2.2.2.2 =
        ((List.range c).map fun s => FftObj.toQ (FftObj.val (u (project w mc box nmesh (FftObj.arange a b d) f (c * i + s)))) *
          (project w mc box nmesh (FftObj.arange a b d) (fun _ => 0) (c * i + s)).2.2.2.2).sum := by
    intro v h1 h2
    rw [h1, (coarse _).2.2.2, shell_weight w mc box nmesh (fun _ => 0) f _ _ (fun m => (m.w : ℚ)) (fun _ _ => rfl), FftObj.mean_total _ (hW f _ _) v, split f v]
    congr 1
    apply List.map_congr_left
    intro s hs
    have hs' := List.mem_range.mp hs
    rw [h2 s hs', (fine _ s hs').2.2.2, shell_weight w mc box nmesh (fun _ => 0) f _ _ (fun m => (m.w : ℚ)) (fun _ _ => rfl), FftObj.mean_total _ (hW f _ _) v]
  refine ⟨hfine, ?_, ?_⟩
  · rw [(coarse _).2.2.2, split]
    congr 1
    apply List.map_congr_left
    intro s hs
    rw [(fine _ s (List.mem_range.mp hs)).2.2.2]
  · rcases hu with rfl | rfl | rfl
    · exact col _ (coarse f).1 fun s hs => (fine f s hs).1
    · exact col _ (coarse f).2.1 fun s hs => (fine f s hs).2.1
    · exact col _ (coarse f).2.2.1 fun s hs => (fine f s hs).2.2.1

/-- C137: two runs that differ only in `dk`, the second with bins `c` times as wide: `alpha`, norms and shot noise are the same; in every row of the second, the
number of modes is the sum of those of the `c` rows of the first that fill the bin, and all other columns are their means weighted by the number of modes. -/
theorem wide_bins (w : World n K) (hw : Fair w) (leg : List ℚ → Nat → Fin n → Fin n → K) (hl : Legendre w leg) (mc : Machine n) (h : ConvObj.Heap)
    (g : ConvObj.Args) (d b : ℚ) (hd : 0 < d) (hmin : 0 ≤ g.kmin) (hb : g.kmax = some b) (c : Nat) (hc : 0 < c) (h1 h2 : ConvObj.Heap) (o o' : ConvObj.Obj)
    (hk : call w mc h { g with dk := some d } = (h1, .ok o)) (hk' : call w mc h { g with dk := some (c * d) } = (h2, .ok o'))
    (i j : Nat) (n1 n2 : ConvObj.Mesh) (hi : h[i]? = some n1) (hj : h[j]? = some n2) (hf : g.first = .mesh i)
    (hs : g.second = some (.mesh j) ∨ (g.second = none ∧ j = i)) (a : ℚ) (ha : o.attrs.alpha = some a) :
    o'.attrs.alpha = o.attrs.alpha ∧ o'.attrs.dataNorm = o.attrs.dataNorm ∧ o'.attrs.randomsNorm = o.attrs.randomsNorm ∧
    o'.attrs.shotnoise = o.attrs.shotnoise ∧ ∃ (cs cs' : List Binned.Col) (N N' : Binned.Col) (ed' : List ℚ), o.poles.data = cs ++ [N] ∧ o'.poles.data = cs' ++ [N'] ∧
      N.name = "modes" ∧ N'.name = "modes" ∧ o'.edges = some ed' ∧
      (∀ r, r + 1 < ed'.length → num N' r = ((List.range c).map fun s => num N (c * r + s)).sum) ∧
      List.Forall₂ (fun x x' => x.name = x'.name ∧ ∀ r, r + 1 < ed'.length →
        num x' r * num N' r = ((List.range c).map fun s => num x (c * r + s) * num N (c * r + s)).sum) cs cs' := by
  obtain ⟨p1, p2⟩ := call_meshes w mc h { g with dk := some d } h1 o hk i j n1 n2 hi hj hf hs
  obtain ⟨p1', p2'⟩ := call_meshes w mc h { g with dk := some (c * d) } h2 o' hk' i j n1 n2 hi hj hf hs
  obtain ⟨r1, r2, m1, m2, norm, ed, a1, a2, a3, a4, a5, a6, a7, a8, a9, ⟨cs, a10⟩, a11, a12, a13, a14⟩ := call_direct w mc leg hl h { g with dk := some d } h1 o hk
  obtain ⟨s1, s2, M1, M2, norm', ed', b1, b2, b3, b4, b5, b6, b7, b8, b9, ⟨cs', b10⟩, b11, b12, b13, b14⟩ :=
    call_direct w mc leg hl h { g with dk := some (c * d) } h2 o' hk'
  have e1 : r1 = i := a3 i hf
  have e2 : s1 = i := b3 i hf
  have e3 : r2 = j := by
    rcases hs with hs | ⟨hs, hj⟩
    · exact a4 j hs
    · rw [a5 hs, e1, hj]
  have e4 : s2 = j := by
    rcases hs with hs | ⟨hs, hj⟩
    · exact b4 j hs
    · rw [b5 hs, e2, hj]
  subst e1
  rw [e2] at b1
  rw [e3] at a2
  rw [e4] at b2
  rw [p1] at a1; rw [p2] at a2; rw [p1'] at b1; rw [p2'] at b2
  cases a1; cases a2; cases b1; cases b2
  generalize hm1 : final n1 n2 n1 = m1 at *
  generalize hm2 : final n1 n2 n2 = m2 at *
  have hcd : 0 < (c : ℚ) * d := by
    have : (0 : ℚ) < c := by exact_mod_cast hc
    positivity
  have bins : ∀ (q : ℚ), 0 < q → ∀ (e : List ℚ) (s : Option (List ℚ)), ConvObj.kBins (envOf w mc) m1 ⟨g.poles.list, some q, g.kmin, g.kmax, m1.nmesh, m1.boxSize,
      m1.boxPad, m1.boxCenter, m1.resampler, m1.interlaced⟩ = .ok (e, s) → e = FftObj.arange g.kmin b q := by
    intro q hq e s he
    unfold ConvObj.kBins at he
    dsimp only at he
    rw [hb, FftObj.xBins_pos _ .power _ _ (by exact hq)] at he
    exact (Prod.mk.inj (Except.ok.inj he)).1.symm
  have x1 := bins d hd ed cs a10
  have x2 := bins (c * d) hcd ed' cs' b10
  subst x1; subst x2
  have ha1 : Fkp.alpha (meshOf mc m1).cat = some a := by rw [← a12]; exact ha
  have ha2 : Fkp.alpha (meshOf mc m2).cat = some a := by
    have hv : ConvObj.validCross m1 m2 = true := by
      apply (ConvObj.valid_iff m1 m2).mpr
      refine ⟨a7, a8, a9, ?_⟩
      obtain ⟨t1, t2, N1, N2, _, _, _, u1, u2, u3, u4, u5, _, _, _, _, _, _, _, u13, _⟩ := ConvObj.result_spec _ (consistent w mc) _ _ _ _ hk
      have v1 : t1 = r1 := u3 r1 (by dsimp only; rw [hf]; rfl)
      have v2 : t2 = j := by
        rcases hs with hs | ⟨hs, hj⟩
        · exact u4 j (by dsimp only; rw [hs]; rfl)
        · rw [u5 (by dsimp only; rw [hs]; rfl), v1, hj]
      rw [v1, p1] at u1
      rw [v2, p2] at u2
      cases u1
      cases u2
      exact u13
    have := (same_alpha mc m1 m2 hv []).1
    show (metaOf mc m2 []).alpha = some a
    rw [← this]; exact ha1
  obtain ⟨c1, c2, c3⟩ := a14 a a (.inl ha1) (.inl ha2)
  obtain ⟨d1, d2, d3⟩ := b14 a a (.inl ha1) (.inl ha2)
  have hal : o'.attrs.alpha = o.attrs.alpha := by rw [a12, b12]
  have hdn : o'.attrs.dataNorm = o.attrs.dataNorm := by rw [c1, d1]
  have hrn : o'.attrs.randomsNorm = o.attrs.randomsNorm := by rw [c2, d2]
  rw [hdn, hrn, a13] at b13
  cases b13
  refine ⟨hal, hdn, hrn, by rw [a11, b11, hal, hrn], _, _, _, _, _, c3, d3, rfl, rfl, b6, ?_, ?_⟩
  · intro r hr
    have hw' := project_wide w hw mc m1.pmBox m1.nmesh g.kmin b d hd hmin c hc (fun _ => 0) r hr (fun r => r.1) (.inl rfl)
    rw [num_range _ _ _ _ _ (by omega)]
    refine Eq.trans hw'.2.1 ?_
    congr 1
    apply List.map_congr_left
    intro s hs'
    rw [num_range _ _ _ _ _ (by have := hw'.1 s (List.mem_range.mp hs'); omega)]
    rfl
  · have key : ∀ (x x' : String) (t : Bool) (f : Fin n → K) (u : Option ℚ × Option ℚ × Option ℚ × Option ℚ × ℚ → Option ℚ)
        (_ : u = (fun r => r.1) ∨ u = (fun r => r.2.2.1) ∨ u = fun r => r.2.2.2.1) (r : Nat), r + 1 < (FftObj.arange g.kmin b (c * d)).length →
        num ⟨x, t, (List.range ((FftObj.arange g.kmin b (c * d)).length - 1)).map fun i => FftObj.val (u (project w mc m1.pmBox m1.nmesh (FftObj.arange g.kmin b (c * d)) f i))⟩ r *
          num ⟨"modes", true, (List.range ((FftObj.arange g.kmin b (c * d)).length - 1)).map fun i =>
            FftObj.val (some (project w mc m1.pmBox m1.nmesh (FftObj.arange g.kmin b (c * d)) (fun _ => 0) i).2.2.2.2)⟩ r =
        ((List.range c).map fun s =>
          num ⟨x', t, (List.range ((FftObj.arange g.kmin b d).length - 1)).map fun i => FftObj.val (u (project w mc m1.pmBox m1.nmesh (FftObj.arange g.kmin b d) f i))⟩ (c * r + s) *
          num ⟨"modes", true, (List.range ((FftObj.arange g.kmin b d).length - 1)).map fun i =>
            FftObj.val (some (project w mc m1.pmBox m1.nmesh (FftObj.arange g.kmin b d) (fun _ => 0) i).2.2.2.2)⟩ (c * r + s)).sum := by
      intro x x' t f u hu r hr
      have hw' := project_wide w hw mc m1.pmBox m1.nmesh g.kmin b d hd hmin c hc f r hr u hu
      rw [num_range _ _ _ _ _ (by omega), num_range _ _ _ _ _ (by omega)]
      refine Eq.trans hw'.2.2 ?_
      congr 1
      apply List.map_congr_left
      intro s hs'
      have := hw'.1 s (List.mem_range.mp hs')
      rw [num_range _ _ _ _ _ (by omega), num_range _ _ _ _ _ (by omega)]
      rfl
    apply List.rel_append
    · exact List.Forall₂.cons ⟨rfl, fun r hr => key _ _ _ _ (fun r => r.1) (.inl rfl) r hr⟩ List.Forall₂.nil
    · have mid : ∀ (R : Binned.Col → Binned.Col → Prop) (l : List Nat) (f g : Nat → List Binned.Col), (∀ x, List.Forall₂ R (f x) (g x)) →
          List.Forall₂ R (l.flatMap f) (l.flatMap g) := by
        intro R l f g h
        induction l with
        | nil => exact List.Forall₂.nil
        | cons x l ih =>
          rw [List.flatMap_cons, List.flatMap_cons]
          exact List.rel_append (h x) ih
      apply mid
      intro ell
      unfold cols averages
      simp only [List.map_map]
      exact List.Forall₂.cons ⟨rfl, fun r hr => key _ _ _ _ (fun r => r.2.2.1) (.inr (.inl rfl)) r hr⟩
        (List.Forall₂.cons ⟨rfl, fun r hr => key _ _ _ _ (fun r => r.2.2.2.1) (.inr (.inr rfl)) r hr⟩ List.Forall₂.nil)

/-- C137: the hypotheses of `wide_bins` hold: bins of width 1, and one bin of width 2 with both modes. -/
theorem wide_case : (call world machA [meshA] { gM with dk := some 1 }).2.toOption.map (fun o => (o.attrs.alpha, o.edges, o.poles.data.map fun c => (c.name, c.vals))) =
      some (some (1 / 2), some [0, 1, 2],
        [("k", [.fin 0, .fin 1]), ("power_0.real", [.fin 0, .fin 16]), ("power_0.imag", [.fin 0, .fin 0]), ("modes", [.fin 1, .fin 1])]) ∧
    (call world machA [meshA] { gM with dk := some (2 * 1) }).2.toOption.map (fun o => (o.attrs.alpha, o.edges, o.poles.data.map fun c => (c.name, c.vals))) =
      some (some (1 / 2), some [0, 2], [("k", [.fin (1 / 2)]), ("power_0.real", [.fin 8]), ("power_0.imag", [.fin 0]), ("modes", [.fin 2])]) ∧ Fair world := by
  refine ⟨by decide +kernel, by decide +kernel, fun _ _ k => ?_⟩
  show (0 : ℚ) ≤ ((k : Nat) : ℚ) ∧ ((k : Nat) : ℚ) ^ 2 = ((k : Nat) : ℚ) ^ 2 ∧ -1 ≤ (0 : ℚ) ∧ (0 : ℚ) ≤ 1 ∧ 0 < 1
  exact ⟨by positivity, rfl, by norm_num, by norm_num, by norm_num⟩

end NBK.Survey
