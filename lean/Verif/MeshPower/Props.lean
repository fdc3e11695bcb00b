import Verif.MeshPower.Model
import Verif.Pipe.DirectProps
import Verif.SpeciesMesh.Props
import Verif.Recon.SymProps

/-! # C143: power and correlation of several species and of reconstructed fields -/
set_option linter.unusedSimpArgs false

namespace NBK.MeshPower
open NBK.Pipe (World Machine Content Fld Powers SameLayout BinsOk ok_bind error_bind)

theorem lift_bind {α β : Type} (x : Except Pipe.Err α) (f : α → Except Pipe.Err β) : lift (x.bind f) = (lift x).bind fun a => lift (f a) := by
  cases x <;> rfl

theorem compute_mesh (w : World) (mc : Machine) (V : ℚ) (c : Content) : compute w mc V (.mesh c) = lift (Pipe.compute w mc V c) := rfl

/-- Without the new sources nothing changes. -/
theorem call_mesh (w : World) (mc : Machine) (k : FftObj.Kind) (first : FftObj.Src) (sec : Option FftObj.Src) (g : FftObj.Args) :
    call w mc (fun s => .mesh (mc.content s)) k first sec g = lift (Pipe.call w mc k first sec g) := by
  unfold call Pipe.call
  rw [lift_bind]
  congr 1
  funext c
  unfold run Pipe.run
  by_cases hn : c.2.1.nmesh ≠ c.2.2.nmesh
  · rw [if_pos hn, if_pos hn]; rfl
  rw [if_neg hn, if_neg hn, lift_bind]
  unfold compute
  congr 1
  funext f1
  rw [lift_bind]
  unfold Pipe.second
  by_cases hs : FftObj.isSame c.2.1 c.2.2
  · rw [if_pos hs, if_pos hs]; rfl
  · rw [if_neg hs, if_neg hs]

/-- The sources of two machines, one by one, have related fields or the same error. -/
def Related (w : World) (mc mc' : Machine) (src src' : Nat → Source) (R : Fld → Fld → Prop) : Prop :=
  ∀ V s, (∃ f f', compute w mc V (src s) = .ok f ∧ compute w mc' V (src' s) = .ok f' ∧ R f f') ∨
    ∃ e, compute w mc V (src s) = .error e ∧ compute w mc' V (src' s) = .error e

theorem run_related (w : World) (mc mc' : Machine) (src src' : Nat → Source) (R : Fld → Fld → Prop) (hr : Related w mc mc' src src' R) (hR : Powers w R)
    (hl : SameLayout mc mc') (k : FftObj.Kind) (a : FftObj.Attrs) (m1 m2 : FftObj.Mesh) (hb : BinsOk w mc k a) :
    run w mc src k a m1 m2 = run w mc' src' k a m1 m2 := by
  unfold run
  by_cases hn : m1.nmesh ≠ m2.nmesh
  · rw [if_pos hn, if_pos hn]
  rw [if_neg hn, if_neg hn]
  rcases hr m1.box.prod m1.src with ⟨f, f', h1, h2, h3⟩ | ⟨e, h1, h2⟩
  · rw [h1, h2, ok_bind, ok_bind]
    by_cases hs : FftObj.isSame m1 m2
    · rw [if_pos hs, if_pos hs, ok_bind, ok_bind, Pipe.run_fields w mc mc' R hR hl k a m1 m2 hb _ _ _ _ h3 h3]
    · rw [if_neg hs, if_neg hs]
      rcases hr m1.box.prod m2.src with ⟨f2, f2', g1, g2, g3⟩ | ⟨e, g1, g2⟩
      · rw [g1, g2, ok_bind, ok_bind, Pipe.run_fields w mc mc' R hR hl k a m1 m2 hb _ _ _ _ h3 g3]
      · rw [g1, g2, error_bind, error_bind]
  · rw [h1, h2, error_bind, error_bind]

theorem call_related (w : World) (mc mc' : Machine) (src src' : Nat → Source) (R : Fld → Fld → Prop) (hr : Related w mc mc' src src' R) (hR : Powers w R)
    (hl : SameLayout mc mc') (k : FftObj.Kind) (first : FftObj.Src) (sec : Option FftObj.Src) (g : FftObj.Args)
    (hb : ∀ c, Pipe.checked w k first sec g = .ok c → BinsOk w mc k c.1) :
    call w mc src k first sec g = call w mc' src' k first sec g := by
  unfold call
  cases hc : Pipe.checked w k first sec g with
  | error e => simp only [Pipe.liftObj, lift, error_bind]
  | ok c => simp only [Pipe.liftObj, lift, ok_bind, run_related w mc mc' src src' R hr hR hl k c.1 c.2.1 c.2.2 (hb c hc)]

/-! ## Several species -/

/-- The weights of all species together, and their squares. -/
def speciesW (sp : List SpeciesMesh.Species) : ℚ := ((SpeciesMesh.allRows sp).map Paint.Row.weight).sum
def speciesW2 (sp : List SpeciesMesh.Species) : ℚ := ((SpeciesMesh.allRows sp).map fun r => r.weight * r.weight).sum

theorem r2c_rows (w : World) (c : ℚ) (rows : List Paint.Row) (m : Nat) : Pipe.r2c w (cellOf w c rows) m = Pipe.scale (c / w.ncells) (Pipe.direct w m rows) :=
  Pipe.r2c_direct w ⟨rows, some c, 0, 0, 0, 0, 0⟩ c rfl m

/-- C143: the coefficients of a mesh of several species are the sums over the objects of all species, each with its weight, over the total weight. -/
theorem species_direct (w : World) (hn : 0 < w.ncells) (mc : Machine) (V : ℚ) (comp : Nat → ℚ) (n : Option Nat) (s : Option ℚ) (sp : List SpeciesMesh.Species)
    (f : Fld) (h : compute w mc V (.species comp n s sp) = .ok f) :
    (∀ m, f.coef m = Pipe.scale (comp m / speciesW sp) (Pipe.direct w m (SpeciesMesh.allRows sp))) ∧ f.N = some (n.getD (SpeciesMesh.allRows sp).length) ∧
    speciesW sp ≠ 0 ∧ ((∀ x ∈ sp, SpeciesMesh.weightOf x ≠ 0) → f.shot = some (s.getD (V * speciesW2 sp / speciesW sp ^ 2))) := by
  have hq : (w.ncells : ℚ) ≠ 0 := by exact_mod_cast hn.ne'
  unfold compute computeSpecies at h
  simp only at h
  split at h
  · cases h
  rename_i fl hfl
  obtain ⟨h1, h2, h3, h4⟩ := SpeciesMesh.field_eq _ _ _ _ _ _ _ hfl
  rw [if_pos rfl] at h4
  split at h
  · cases h
  rename_i c hc
  split at h
  · cases h
  rename_i q hs
  have h := (Except.ok.inj h).symm
  subst h
  rw [h4] at hc
  unfold SpeciesMesh.fdiv at hc
  have hb : fl.nbar ≠ 0 := by
    intro h0
    rw [if_pos h0] at hc
    cases hc
  rw [if_neg hb, h3] at hc
  have hc := (Option.some.inj hc).symm
  have hW : speciesW sp ≠ 0 := by
    intro h0
    apply hb
    rw [h3]
    unfold speciesW at h0
    rw [h0, zero_div]
  refine ⟨fun m => ?_, by rw [h2], hW, fun hx => ?_⟩
  · simp only
    rw [r2c_rows, Pipe.scale_scale, hc, Pipe.direct_perm w m h1]
    congr 1
    have hW' := hW
    unfold speciesW at hW' ⊢
    field_simp
  · have hsh := SpeciesMesh.field_shotnoise_partial _ _ _ _ _ _ _ hfl hx hW
    rw [hsh] at hs
    cases s with
    | none => exact hs.symm ▸ rfl
    | some q' => cases hs; rfl

/-- Painting several species succeeds. -/
theorem species_ok (w : World) (hn : 0 < w.ncells) (mc : Machine) (hm : 0 < mc.maxc) (V : ℚ) (comp : Nat → ℚ) (n : Option Nat) (s : Option ℚ)
    (sp : List SpeciesMesh.Species) (hP : ∀ x ∈ sp, x.ranks.length ≤ 2 * mc.maxc) (hW : speciesW sp ≠ 0) (hx : ∀ x ∈ sp, SpeciesMesh.weightOf x ≠ 0) :
    ∃ f, compute w mc V (.species comp n s sp) = .ok f := by
  have hq : (w.ncells : ℚ) ≠ 0 := by exact_mod_cast hn.ne'
  obtain ⟨fl, hfl⟩ := SpeciesMesh.field_succeeds mc.dest mc.maxc w.ncells hm V true sp hP
  obtain ⟨h1, h2, h3, h4⟩ := SpeciesMesh.field_eq _ _ _ _ _ _ _ hfl
  have hsh := SpeciesMesh.field_shotnoise_partial _ _ _ _ _ _ _ hfl hx hW
  have hb : fl.nbar ≠ 0 := by
    rw [h3]
    exact div_ne_zero hW hq
  rw [if_pos rfl, SpeciesMesh.fdiv, if_neg hb] at h4
  unfold compute computeSpecies
  simp only [hfl, h4, hsh]
  cases s with
  | none => exact ⟨_, rfl⟩
  | some q => exact ⟨_, rfl⟩

/-- A source and what a user can give in its place: a mesh of several species, or the mesh of one catalog with all their rows, however distributed. -/
def Merged : Source → Source → Prop
  | .mesh c, .mesh c' => Pipe.SameContent c c'
  | .species comp n s sp, .mesh (.particles comp' n' s' rows) =>
    comp = comp' ∧ n = n' ∧ s = s' ∧ rows.flatten.Perm (sp.map fun x => x.ranks.flatten).flatten ∧ 0 < speciesW sp ∧ ∀ x ∈ sp, SpeciesMesh.weightOf x ≠ 0
  | .species comp n s sp, .species comp' n' s' sp' =>
    comp = comp' ∧ n = n' ∧ s = s' ∧ (sp'.map fun x => x.ranks.flatten).flatten.Perm (sp.map fun x => x.ranks.flatten).flatten ∧ speciesW sp ≠ 0 ∧
      (∀ x ∈ sp, SpeciesMesh.weightOf x ≠ 0) ∧ ∀ x ∈ sp', SpeciesMesh.weightOf x ≠ 0
  | _, _ => False

/-- Enough ranks for painting. -/
def Fits (mc : Machine) (src : Nat → Source) : Prop :=
  0 < mc.maxc ∧ ∀ s, (∀ comp n q rows, src s = .mesh (.particles comp n q rows) → rows.length ≤ 2 * mc.maxc) ∧
    ∀ comp n q sp, src s = .species comp n q sp → ∀ x ∈ sp, x.ranks.length ≤ 2 * mc.maxc

theorem allRows_eq (sp : List SpeciesMesh.Species) : SpeciesMesh.allRows sp = ((sp.map fun x => x.ranks.flatten).flatten).filter fun r => r.sel := by
  unfold SpeciesMesh.allRows Paint.selected
  rw [List.filter_flatten, List.map_map]
  rfl

theorem fld_ext {f f' : Fld} (h1 : ∀ m, f.coef m = f'.coef m) (h2 : f.N = f'.N) (h3 : f.shot = f'.shot) : f = f' := by
  obtain ⟨a, b, c⟩ := f
  obtain ⟨a', b', c'⟩ := f'
  simp only at h1 h2 h3
  rw [funext h1, h2, h3]

theorem mesh_ok (w : World) (mc : Machine) (V : ℚ) (c : Content) (hm : 0 < mc.maxc) (hP : ∀ comp an as rows, c = .particles comp an as rows → rows.length ≤ 2 * mc.maxc) :
    ∃ f, Pipe.compute w mc V c = .ok f ∧ compute w mc V (.mesh c) = .ok f := by
  obtain ⟨f, hf⟩ := Pipe.compute_ok w mc V c hm hP
  exact ⟨f, hf, by rw [compute_mesh, hf]; rfl⟩

theorem merged_field (w : World) (hn : 0 < w.ncells) (mc mc' : Machine) (V : ℚ) (a b : Source) (h : Merged a b) (hm : 0 < mc.maxc) (hm' : 0 < mc'.maxc)
    (p1 : ∀ comp n q rows, a = .mesh (.particles comp n q rows) → rows.length ≤ 2 * mc.maxc) (p2 : ∀ comp n q sp, a = .species comp n q sp → ∀ x ∈ sp, x.ranks.length ≤ 2 * mc.maxc)
    (q1 : ∀ comp n q rows, b = .mesh (.particles comp n q rows) → rows.length ≤ 2 * mc'.maxc) (q2 : ∀ comp n q sp, b = .species comp n q sp → ∀ x ∈ sp, x.ranks.length ≤ 2 * mc'.maxc) :
    ∃ f, compute w mc V a = .ok f ∧ compute w mc' V b = .ok f := by
  cases a with
  | recon r => cases b <;> exact h.elim
  | mesh c =>
    cases b with
    | recon r => exact h.elim
    | species comp n s sp => exact h.elim
    | mesh c' =>
      obtain ⟨f, h1, h2⟩ := mesh_ok w mc V c hm fun comp n q rows e => p1 comp n q rows (by rw [e])
      obtain ⟨f', h1', h2'⟩ := mesh_ok w mc' V c' hm' fun comp n q rows e => q1 comp n q rows (by rw [e])
      have := Pipe.compute_same w hn mc mc' V c c' h f f' h1 h1'
      subst this
      exact ⟨f, h2, h2'⟩
  | species comp n s sp =>
    cases b with
    | recon r => exact h.elim
    | mesh c =>
      cases c with
      | cells n s f => exact h.elim
      | particles comp' n' s' rows =>
        obtain ⟨rfl, rfl, rfl, hp, hW, hx⟩ := h
        obtain ⟨f, hf⟩ := species_ok w hn mc hm V comp n s sp (p2 _ _ _ _ rfl) hW.ne' hx
        obtain ⟨f', h1', h2'⟩ := mesh_ok w mc' V (.particles comp n s rows) hm' fun _ _ _ _ e => q1 _ _ _ _ (by rw [e])
        obtain ⟨a1, a2, -, a3⟩ := species_direct w hn mc V comp n s sp f hf
        obtain ⟨b1, b2, b3⟩ := Pipe.compute_direct w hn mc' V comp n s rows f' h1'
        have hs : (Paint.selected rows).Perm (SpeciesMesh.allRows sp) := by
          rw [allRows_eq]
          exact hp.filter _
        have eW : Pipe.totalW rows = speciesW sp := (hs.map _).sum_eq
        have eW2 : Pipe.totalW2 rows = speciesW2 sp := (hs.map _).sum_eq
        have : f = f' := by
          apply fld_ext
          · intro m
            rw [a1, b1, eW, if_pos hW, Pipe.direct_perm w m hs]
          · rw [a2, b2, hs.length_eq]
          · rw [a3 hx, b3, eW, eW2]
        exact ⟨f, hf, this ▸ h2'⟩
    | species comp' n' s' sp' =>
      obtain ⟨rfl, rfl, rfl, hp, hW, hx, hx'⟩ := h
      have hs : (SpeciesMesh.allRows sp').Perm (SpeciesMesh.allRows sp) := by
        rw [allRows_eq, allRows_eq]
        exact hp.filter _
      have eW : speciesW sp' = speciesW sp := (hs.map _).sum_eq
      have eW2 : speciesW2 sp' = speciesW2 sp := (hs.map _).sum_eq
      obtain ⟨f, hf⟩ := species_ok w hn mc hm V comp n s sp (p2 _ _ _ _ rfl) hW hx
      obtain ⟨f', hf'⟩ := species_ok w hn mc' hm' V comp n s sp' (q2 _ _ _ _ rfl) (eW ▸ hW) hx'
      obtain ⟨a1, a2, -, a3⟩ := species_direct w hn mc V comp n s sp f hf
      obtain ⟨b1, b2, -, b3⟩ := species_direct w hn mc' V comp n s sp' f' hf'
      have : f = f' := by
        apply fld_ext
        · intro m
          rw [a1, b1, eW, Pipe.direct_perm w m hs]
        · rw [a2, b2, hs.length_eq]
        · rw [a3 hx, b3 hx', eW, eW2]
      exact ⟨f, hf, this ▸ hf'⟩

/-- **C143.** `FFTPower` and `FFTCorr` of a mesh of several species give the same object as of the mesh of one catalog with the rows of all species; the
order of the species, their number and the ranks do not matter. Every species must have a weight, and the total weight must be positive. -/
theorem call_species_partial (w : World) (hn : 0 < w.ncells) (mc mc' : Machine) (hl : SameLayout mc mc') (src src' : Nat → Source)
    (hs : ∀ s, Merged (src s) (src' s)) (hf : Fits mc src) (hf' : Fits mc' src') (k : FftObj.Kind) (first : FftObj.Src) (sec : Option FftObj.Src) (g : FftObj.Args)
    (hb : ∀ c, Pipe.checked w k first sec g = .ok c → BinsOk w mc k c.1) :
    call w mc src k first sec g = call w mc' src' k first sec g := by
  refine call_related w mc mc' src src' Eq ?_ (Pipe.powers_eq w) hl k first sec g hb
  intro V s
  obtain ⟨f, h1, h2⟩ := merged_field w hn mc mc' V (src s) (src' s) (hs s) hf.1 hf'.1 (hf.2 s).1 (hf.2 s).2 (hf'.2 s).1 (hf'.2 s).2
  exact .inl ⟨f, f, h1, h2, rfl⟩

theorem direct_append (w : World) (m : Nat) (l l' : List Paint.Row) :
    Pipe.direct w m (l ++ l') = ⟨(Pipe.direct w m l).re + (Pipe.direct w m l').re, (Pipe.direct w m l).im + (Pipe.direct w m l').im⟩ := by
  unfold Pipe.direct Pipe.sum
  simp [List.map_append, List.sum_append]

theorem direct_species (w : World) (m : Nat) (sp : List SpeciesMesh.Species) :
    Pipe.direct w m (SpeciesMesh.allRows sp) = Pipe.sum (sp.map fun x => Pipe.direct w m (Paint.selected x.ranks)) := by
  induction sp with
  | nil => rfl
  | cons x sp ih =>
    have : SpeciesMesh.allRows (x :: sp) = Paint.selected x.ranks ++ SpeciesMesh.allRows sp := rfl
    rw [this, direct_append, ih]
    rfl

/-- **C143.** The field of several species is the mean of the fields of the species, with their weights: `coef` and so the cross power with any other field
are `Σ (W_i / W)` times those of the species. -/
theorem species_mixture (w : World) (hn : 0 < w.ncells) (mc mc' : Machine) (V : ℚ) (comp : Nat → ℚ) (n : Option Nat) (s : Option ℚ)
    (sp : List SpeciesMesh.Species) (hx : ∀ x ∈ sp, 0 < SpeciesMesh.weightOf x) (f : Fld) (h : compute w mc V (.species comp n s sp) = .ok f)
    (one : SpeciesMesh.Species → Fld) (h1 : ∀ x ∈ sp, compute w mc' V (.mesh (.particles comp none none x.ranks)) = .ok (one x)) (c2 : Nat → Project.Cx) (m : Nat) :
    f.coef m = Pipe.sum (sp.map fun x => Pipe.scale (SpeciesMesh.weightOf x / (sp.map SpeciesMesh.weightOf).sum) ((one x).coef m)) ∧
    Pipe.power w V f.coef c2 m =
      Pipe.sum (sp.map fun x => Pipe.scale (SpeciesMesh.weightOf x / (sp.map SpeciesMesh.weightOf).sum) (Pipe.power w V (one x).coef c2 m)) := by
  obtain ⟨a1, -, hW, -⟩ := species_direct w hn mc V comp n s sp f h
  have eW : speciesW sp = (sp.map SpeciesMesh.weightOf).sum := by
    unfold speciesW SpeciesMesh.allRows
    rw [List.map_flatten, List.sum_flatten, List.map_map, List.map_map]
    rfl
  have hc : f.coef m = Pipe.sum (sp.map fun x => Pipe.scale (SpeciesMesh.weightOf x / (sp.map SpeciesMesh.weightOf).sum) ((one x).coef m)) := by
    rw [a1, direct_species, ← Pipe.sum_scale, List.map_map, ← eW]
    congr 1
    apply List.map_congr_left
    intro x hxs
    have hw := hx x hxs
    have hp : Pipe.compute w mc' V (.particles comp none none x.ranks) = .ok (one x) := by
      have := h1 x hxs
      rw [compute_mesh] at this
      cases hq : Pipe.compute w mc' V (.particles comp none none x.ranks) with
      | error e => rw [hq] at this; cases this
      | ok y => rw [hq] at this; cases this; rfl
    obtain ⟨b1, -, -⟩ := Pipe.compute_direct w hn mc' V comp none none x.ranks (one x) hp
    have ht : Pipe.totalW x.ranks = SpeciesMesh.weightOf x := rfl
    simp only [Function.comp]
    rw [b1, ht, if_pos hw, Pipe.scale_scale]
    congr 1
    have := hw.ne'
    field_simp
  refine ⟨hc, ?_⟩
  unfold Pipe.power
  by_cases hm : m = w.zero
  · simp only [if_pos hm]
    have : ∀ l : List SpeciesMesh.Species, Pipe.sum (l.map fun x => Pipe.scale (SpeciesMesh.weightOf x / (sp.map SpeciesMesh.weightOf).sum) ⟨0, 0⟩) = ⟨0, 0⟩ := by
      intro l
      induction l with
      | nil => rfl
      | cons x l ih =>
        have e : ∀ (x : Project.Cx) (l : List Project.Cx), Pipe.sum (x :: l) = ⟨x.re + (Pipe.sum l).re, x.im + (Pipe.sum l).im⟩ := fun _ _ => rfl
        rw [List.map_cons, e, ih]
        simp [Pipe.scale]
    exact (this sp).symm
  · simp only [if_neg hm]
    rw [hc]
    have mc : ∀ (a b : Project.Cx), Pipe.mul a b = Pipe.mul b a := by
      intro a b
      unfold Pipe.mul
      apply Pipe.ext <;> simp only <;> ring
    rw [mc, ← Pipe.mul_sum, ← Pipe.sum_scale, List.map_map, List.map_map]
    congr 1
    apply List.map_congr_left
    intro x _
    simp only [Function.comp]
    rw [mc ((one x).coef m), ← Pipe.mul_scale, Pipe.scale_scale, Pipe.scale_scale, mul_comm]

end NBK.MeshPower
