import Verif.Survey.Model
import Verif.Fkp.Props
import Verif.ConvObj.Props
import Verif.Pipe.Props

/-!
# Properties of `ConvolvedFFTPower` of catalogs (C137): ranks
-/
set_option linter.unusedSimpArgs false
namespace NBK.Survey
open NBK

variable {n : Nat} {K : Type} [CommRing K] [Algebra ℚ K]

/-! ## The distribution of rows and modes -/

/-- The same rows, distributed and ordered in any way. -/
structure Same (s s' : Survey) : Prop where
  data : s.data.flatten.Perm s'.data.flatten
  randoms : s.randoms.flatten.Perm s'.randoms.flatten
  boxSize : s.boxSize = s'.boxSize
  boxPad : s.boxPad = s'.boxPad

theorem all_map (l : List (List Raw)) (f : Raw → Fkp.Row) (a b : Bool) :
    (Fkp.Cat.mk (l.map (·.map f)) a b).all = (l.flatten.map f).filter Fkp.Row.sel := by
  unfold Fkp.Cat.all
  rw [List.map_flatten]

theorem csize_map (l : List (List Raw)) (f : Raw → Fkp.Row) (a b : Bool) : (Fkp.Cat.mk (l.map (·.map f)) a b).csize = l.flatten.length := by
  unfold Fkp.Cat.csize
  rw [List.map_map, List.length_flatten]
  congr 1
  apply List.map_congr_left
  intro x _
  simp

variable {s s' : Survey}

theorem data_perm (h : Same s s') (f : Raw → Fkp.Row) : (catOf s f).data.all.Perm (catOf s' f).data.all := by
  unfold catOf
  rw [all_map, all_map]
  exact (h.data.map f).filter _

theorem randoms_perm (h : Same s s') (f : Raw → Fkp.Row) : (catOf s f).randoms.all.Perm (catOf s' f).randoms.all := by
  unfold catOf
  rw [all_map, all_map]
  exact (h.randoms.map f).filter _

theorem randoms_size (h : Same s s') (f : Raw → Fkp.Row) : (catOf s f).randoms.csize = (catOf s' f).randoms.csize := by
  unfold catOf
  rw [csize_map, csize_map, h.randoms.length_eq]

theorem alpha_same (h : Same s s') (f : Raw → Fkp.Row) : Fkp.alpha (catOf s f) = Fkp.alpha (catOf s' f) := by
  unfold Fkp.alpha Fkp.weightedTotal
  rw [Fkp.allSum_perm (data_perm h f), Fkp.allSum_perm (randoms_perm h f)]

theorem norm_same (h : Same s s') (f : Raw → Fkp.Row) (second : Fkp.Row → ℚ) (sp : Fkp.Species) (al : Option ℚ) :
    Fkp.normSum (catOf s f) second sp al = Fkp.normSum (catOf s' f) second sp al := by
  cases sp with
  | data =>
    unfold Fkp.normSum
    simp only [Fkp.allSum_perm (data_perm h f)]
  | randoms =>
    unfold Fkp.normSum
    simp only [Fkp.selected_flatten, Fkp.allSum_perm (randoms_perm h f), (randoms_perm h f).isEmpty_eq]

theorem shot_same (h : Same s s') (f : Raw → Fkp.Row) (al rn : Option ℚ) : shotOf (catOf s f) al rn = shotOf (catOf s' f) al rn := by
  unfold shotOf Fkp.shotnoise
  simp only [Fkp.allSum_perm (data_perm h f), Fkp.allSum_perm (randoms_perm h f)]

theorem speciesMeta_perm (name : String) (c d : Fkp.Cat) (h : c.all.Perm d.all) (nmesh : List Nat) : speciesMeta name c nmesh = speciesMeta name d nmesh := by
  have hN : (c.selected.map List.length).sum = (d.selected.map List.length).sum := by
    rw [← List.length_flatten, ← List.length_flatten, Fkp.selected_flatten, Fkp.selected_flatten, h.length_eq]
  unfold speciesMeta Fkp.weightedTotal
  rw [hN, Fkp.allSum_perm h, Fkp.allSum_perm h, Fkp.allSum_perm h]

/-- Two layouts of the same catalogs and modes. -/
structure SameLayout (mc mc' : Machine n) : Prop where
  cats : ∀ i, Same (mc.cats i) (mc'.cats i)
  slabs : mc.slabs.flatten.flatten.Perm mc'.slabs.flatten.flatten

variable {mc mc' : Machine n}

theorem meta_same (h : SameLayout mc mc') (m : ConvObj.Mesh) (nmesh : List Nat) : metaOf mc m nmesh = metaOf mc' m nmesh := by
  have hs := h.cats m.source
  unfold metaOf meshOf
  simp only
  rw [alpha_same hs, speciesMeta_perm _ _ _ (data_perm hs _), speciesMeta_perm _ _ _ (randoms_perm hs _), randoms_size hs]
  unfold Fkp.weightedTotal
  simp only [Fkp.allSum_perm (randoms_perm hs _), Fkp.allSum_perm (data_perm hs _)]

theorem field_same (w : World n K) (h : SameLayout mc mc') (m : ConvObj.Mesh) :
    Fkp.toRealField (w.win m.resampler m.interlaced) (meshOf mc m) = Fkp.toRealField (w.win m.resampler m.interlaced) (meshOf mc' m) :=
  Fkp.field_indep _ _ _ rfl rfl rfl rfl (data_perm (h.cats _) _) (randoms_perm (h.cats _) _) (randoms_size (h.cats _) _)

theorem modes_flat (w : World n K) (mc : Machine n) (box : List ℚ) (nmesh : List Nat) (f : Fin n → K) : Project.modes (modesOf w mc box nmesh f) =
    mc.slabs.flatten.flatten.map fun k => { w.coord box nmesh k with y := ⟨w.re (f k), w.im (f k)⟩ } := by
  unfold modesOf Project.modes
  rw [List.map_flatten, List.map_flatten]

theorem project_same (w : World n K) (h : SameLayout mc mc') (box : List ℚ) (nmesh : List Nat) (ed : List ℚ) (f : Fin n → K) (i : Nat) :
    project w mc box nmesh ed f i = project w mc' box nmesh ed f i := by
  unfold project
  exact (Project.project_independent _ _ _ _ _ (by rw [modes_flat, modes_flat]; exact h.slabs.map _) _).1 _ _

theorem conv_same (w : World n K) (h : SameLayout mc mc') : convOf w mc = convOf w mc' := by
  funext ed m1 m2 nmesh c1 c2 norm
  unfold convOf fieldOf finite
  simp only [field_same w h, project_same w h]

theorem env_same (w : World n K) (h : SameLayout mc mc') : envOf w mc' = { envOf w mc with modes := (envOf w mc').modes } := by
  unfold envOf
  have h1 : metaOf mc = metaOf mc' := by funext m nm; exact meta_same h m nm
  have h2 : (fun (m1 m2 : ConvObj.Mesh) al => Fkp.normSum (pairOf mc m1 m2) Fkp.Row.val .data al) =
      fun m1 m2 al => Fkp.normSum (pairOf mc' m1 m2) Fkp.Row.val .data al := by
    funext m1 m2 al; exact norm_same (h.cats _) _ _ _ _
  have h3 : (fun (m1 m2 : ConvObj.Mesh) al => Fkp.normSum (pairOf mc m1 m2) Fkp.Row.val .randoms al) =
      fun m1 m2 al => Fkp.normSum (pairOf mc' m1 m2) Fkp.Row.val .randoms al := by
    funext m1 m2 al; exact norm_same (h.cats _) _ _ _ _
  have h4 : (fun (m1 m2 : ConvObj.Mesh) al rn => shotOf (pairOf mc m1 m2) al rn) = fun m1 m2 al rn => shotOf (pairOf mc' m1 m2) al rn := by
    funext m1 m2 al rn; exact shot_same (h.cats _) _ _ _
  rw [h1, h2, h3, h4, conv_same w h]

/-! ## The bins -/

/-- The surroundings that the bins see. -/
def binEnv (w : World n K) : FftObj.Env := ⟨w.pi, w.root, fun _ _ _ _ => [], fun _ => none, fun _ => none⟩

/-- Either the bins have a width, or the wavenumbers of the modes are far enough apart for `_find_unique_edges` to tell them. -/
def BinsOk (w : World n K) (mc : Machine n) (g : ConvObj.Args) (box : List ℚ) (nmesh : List Nat) : Prop :=
  0 < g.dk.getD (FftObj.dxDefault (binEnv w) .power box nmesh) ∨
    let k0 := FftObj.fundamental (binEnv w) .power box nmesh
    let l := mc.slabs.flatten.flatten
    let k2 := fun k => (w.coord box nmesh k).x2
    0 < k0 ∧ (∀ i ∈ l, ∀ j ∈ l, k2 i < k2 j → (k0 / 20) ^ 2 ≤ k2 j - k2 i) ∧
      ∀ i ∈ l, ∀ j ∈ l, w.root (k2 i) < w.root (k2 j) → k0 / 100000 ≤ w.root (k2 j) - w.root (k2 i)

theorem mem_x2 {α : Type} (l : List (List (List α))) (f : α → Project.Mode) (q : ℚ) :
    q ∈ ((l.map fun rank => rank.map fun slab => slab.map f).map fun slabs => slabs.flatten.map fun m => m.x2).flatten ↔
      ∃ i ∈ l.flatten.flatten, (f i).x2 = q := by
  simp only [List.mem_flatten, List.mem_map, List.map_map, Function.comp_def]
  constructor
  · rintro ⟨_, ⟨rank, hr, rfl⟩, h⟩
    simp only [List.mem_map, List.mem_flatten] at h
    obtain ⟨m, ⟨_, ⟨slab, hs, rfl⟩, hm⟩, rfl⟩ := h
    obtain ⟨i, hi, rfl⟩ := List.mem_map.mp hm
    exact ⟨i, ⟨slab, ⟨rank, hr, hs⟩, hi⟩, rfl⟩
  · rintro ⟨i, ⟨slab, ⟨rank, hr, hs⟩, hi⟩, rfl⟩
    refine ⟨_, ⟨rank, hr, rfl⟩, ?_⟩
    simp only [List.mem_map, List.mem_flatten]
    exact ⟨f i, ⟨_, ⟨slab, hs, rfl⟩, List.mem_map.mpr ⟨i, hi, rfl⟩⟩, rfl⟩

theorem bins_same (w : World n K) (h : SameLayout mc mc') (g : ConvObj.Args) (m : ConvObj.Mesh) (a : ConvObj.Attrs) (ha : a.dk = g.dk)
    (hb : BinsOk w mc g m.pmBox m.nmesh) : ConvObj.kBins (envOf w mc) m a = ConvObj.kBins (envOf w mc') m a := by
  unfold ConvObj.kBins FftObj.xBins
  have e1 : (envOf w mc).pi = w.pi := rfl
  have e2 : (envOf w mc').pi = w.pi := rfl
  have e3 : (envOf w mc).root = w.root := rfl
  have e4 : (envOf w mc').root = w.root := rfl
  simp only [e1, e2, e3, e4, ha]
  by_cases hd : 0 < g.dk.getD (FftObj.dxDefault (binEnv w) .power m.pmBox m.nmesh)
  · have hd' := hd
    unfold binEnv at hd'
    rw [if_pos hd', if_pos hd']
  · rcases hb with hb | ⟨h0, h1, h2⟩
    · exact absurd hb hd
    have hd' := hd
    unfold binEnv at hd' h0 h1 h2
    rw [if_neg hd', if_neg hd']
    generalize FftObj.fundamental ⟨w.pi, w.root, fun _ _ _ _ => [], fun _ => none, fun _ => none⟩ .power m.pmBox m.nmesh = x0 at h0 h1 h2 ⊢
    have hu := Uedges.ranks_partial w.root x0
      (a.kmax.getD (FftObj.xmaxDefault ⟨w.pi, w.root, fun _ _ _ _ => [], fun _ => none, fun _ => none⟩ .power m.pmBox m.nmesh
        (g.dk.getD (FftObj.dxDefault ⟨w.pi, w.root, fun _ _ _ _ => [], fun _ => none, fun _ => none⟩ .power m.pmBox m.nmesh)))) h0
      (((envOf w mc').modes m.pmBox m.nmesh).map fun slabs => slabs.flatten.map fun m => m.x2)
      (((envOf w mc).modes m.pmBox m.nmesh).map fun slabs => slabs.flatten.map fun m => m.x2)
    rw [hu]
    · intro q
      unfold envOf modesOf
      dsimp only
      rw [mem_x2, mem_x2]
      simp only [h.slabs.mem_iff]
    · intro x hx y hy hxy
      unfold envOf modesOf at hx hy
      dsimp only at hx hy
      rw [mem_x2] at hx hy
      obtain ⟨i, hi, rfl⟩ := hx
      obtain ⟨j, hj, rfl⟩ := hy
      simpa [div_eq_mul_inv] using h1 i (h.slabs.mem_iff.mpr hi) j (h.slabs.mem_iff.mpr hj) hxy
    · intro x hx y hy hxy
      unfold envOf modesOf at hx hy
      dsimp only at hx hy
      rw [mem_x2] at hx hy
      obtain ⟨i, hi, rfl⟩ := hx
      obtain ⟨j, hj, rfl⟩ := hy
      simpa [div_eq_mul_inv] using h2 i (h.slabs.mem_iff.mpr hi) j (h.slabs.mem_iff.mpr hj) hxy

/-- The modes are only used for the bins. -/
theorem new_modes (e : ConvObj.Env n K) (M : List ℚ → List Nat → List (List (List Project.Mode))) (h : ConvObj.Heap) (g : ConvObj.Args)
    (hb : ∀ h1 r1 m a, ConvObj.castMesh h g.nmesh g.first = .ok (h1, r1) → h1[r1]? = some m → a.dk = g.dk →
      ConvObj.kBins e m a = ConvObj.kBins { e with modes := M } m a) :
    ConvObj.new e h g = ConvObj.new { e with modes := M } h g := by
  unfold ConvObj.new
  by_cases hd : g.deprecated = true
  · rw [if_pos hd, if_pos hd]
  rw [if_neg hd, if_neg hd]
  cases hc : ConvObj.castMesh h g.nmesh g.first with
  | error x => rfl
  | ok p =>
    obtain ⟨h1, r1⟩ := p
    obtain ⟨a1, a2, a3⟩ := ConvObj.cast_prefix _ _ _ _ _ hc
    dsimp only
    cases hs : ConvObj.castSecond h1 g.nmesh r1 g.second with
    | error x => rfl
    | ok p =>
      obtain ⟨h2, r2⟩ := p
      obtain ⟨b1, b2, b3⟩ := ConvObj.second_prefix _ _ _ _ a1 _ _ hs
      dsimp only
      have hm1 : h2[r1]? = some h1[r1] := b2 r1 _ (List.getElem?_eq_getElem a1)
      have hm2 := List.getElem?_eq_getElem b1
      rw [hm1, hm2]
      dsimp only
      by_cases hv : ¬ ConvObj.validCross h1[r1] h2[r2] = true
      · rw [if_pos hv, if_pos hv]
      · rw [if_neg hv, if_neg hv]
        by_cases hco : h2[r2].comm ≠ h1[r1].comm
        · rw [if_pos hco, if_pos hco]
        · rw [if_neg hco, if_neg hco, ConvObj.build_eq e g h2 r1 r2 _ _ hm1 hm2,
            ConvObj.build_eq { e with modes := M } g h2 r1 r2 _ _ hm1 hm2]
          dsimp only
          rw [hb h1 r1 h1[r1] _ hc (List.getElem?_eq_getElem a1) rfl]
          rfl

/-! ## The whole run -/

/-- Both layouts find the box of the catalog, if one is passed (`get_data_bounds` fails on some layouts, `ranks_fail`). -/
def BoxFound (mc mc' : Machine n) : ConvObj.Src → Prop
  | .catalog c => (∃ b, bboxOf mc c.id = .ok b) ∧ ∃ b, bboxOf mc' c.id = .ok b
  | _ => True

theorem bbox_same (h : SameLayout mc mc') (hc : 0 < mc.chunk) (hc' : 0 < mc'.chunk) (id : Nat) (b b' : List ℚ × List ℚ)
    (hb : bboxOf mc id = .ok b) (hb' : bboxOf mc' id = .ok b') : b = b' := by
  unfold bboxOf at hb hb'
  dsimp only at hb hb'
  have hs := h.cats id
  generalize hf : (fun r : Raw => (⟨r.pos, r.flag "Selection", 0, 0, 0, 0⟩ : Fkp.Row)) = f at hb hb'
  have hsp : Fkp.boxSpecies (catOf (mc.cats id) f) none = Fkp.boxSpecies (catOf (mc'.cats id) f) none := by
    unfold Fkp.boxSpecies
    dsimp only
    rw [randoms_size hs]
  rw [hsp] at hb
  generalize Fkp.boxSpecies (catOf (mc'.cats id) f) none = sp at hb hb'
  have hall : ((catOf (mc.cats id) f).get sp).all.Perm ((catOf (mc'.cats id) f).get sp).all := by
    cases sp
    · exact data_perm hs f
    · exact randoms_perm hs f
  split at hb
  · rename_i q hq
    split at hb'
    · rename_i q' hq'
      cases Fkp.box_indep _ _ hc hc' _ _ _ _ hs.boxSize hs.boxPad (fun r => hall.mem_iff) _ _ hq hq'
      cases hb
      cases hb'
      rfl
    · cases hb'
  · cases hb

theorem located_same (h : SameLayout mc mc') (hc : 0 < mc.chunk) (hc' : 0 < mc'.chunk) (s : ConvObj.Src) (hf : BoxFound mc mc' s) :
    located mc s = located mc' s := by
  cases s with
  | catalog c =>
    obtain ⟨⟨b, hb⟩, b', hb'⟩ := hf
    have := bbox_same h hc hc' c.id b b' hb hb'
    show ConvObj.Src.catalog { c with bbox := bboxOf mc c.id } = .catalog { c with bbox := bboxOf mc' c.id }
    rw [hb, hb', this]
  | mesh r => rfl
  | other => rfl

/-- C137 (partial): the whole object of `ConvolvedFFTPower` - multipoles, wavenumbers, numbers of modes, `alpha`, norms, shot noise, boxes and metadata -
and the changes of the mesh objects are the same however the data, the randoms and the modes are distributed over any numbers of ranks, in any order, with
any chunk size. Missing: layouts for which the box of a catalog is not found (`ranks_fail`), and `dk=0` with wavenumbers too close. -/
theorem call_ranks_partial (w : World n K) (h : SameLayout mc mc') (hc : 0 < mc.chunk) (hc' : 0 < mc'.chunk) (heap : ConvObj.Heap) (g : ConvObj.Args)
    (h1 : BoxFound mc mc' g.first) (h2 : ∀ s, g.second = some s → BoxFound mc mc' s)
    (hb : ∀ hp r m, ConvObj.castMesh heap g.nmesh (located mc g.first) = .ok (hp, r) → hp[r]? = some m → BinsOk w mc g m.pmBox m.nmesh) :
    call w mc heap g = call w mc' heap g := by
  unfold call
  have e2 : g.second.map (located mc) = g.second.map (located mc') := by
    cases hg : g.second with
    | none => rfl
    | some s => simp only [Option.map_some]; rw [located_same h hc hc' s (h2 s hg)]
  rw [e2, ← located_same h hc hc' g.first h1, env_same w h]
  apply new_modes
  intro hp r m a hcast hm ha
  rw [← env_same w h]
  exact bins_same w h g m a ha (hb hp r m hcast hm)

end NBK.Survey
