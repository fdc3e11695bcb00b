import Verif.MeshPower.Props

/-! # C143: reconstructed fields; shifts of all sources -/
set_option linter.unusedSimpArgs false

namespace NBK.MeshPower
open NBK.Pipe (World Machine Content Fld Powers SameLayout BinsOk ok_bind error_bind Shift)

/-! ## Ranks and copies -/

/-- The same reconstruction with the objects of data and randoms distributed in another way, each of them perhaps several times. -/
def SameRecon (r r' : ReconSrc) : Prop :=
  ∃ data ran, r' = { r with data := data, ran := ran } ∧ r.n ≠ 0 ∧ r.data.flatten ≠ [] ∧ r.ran.flatten ≠ [] ∧
    (∃ j, 0 < j ∧ data.flatten.Perm (List.replicate j r.data.flatten).flatten) ∧ ∃ j, 0 < j ∧ ran.flatten.Perm (List.replicate j r.ran.flatten).flatten

/-- `Merged` or the same reconstruction. -/
def SameSource : Source → Source → Prop
  | .recon r, .recon r' => SameRecon r r'
  | a, b => Merged a b

theorem recon_same (w : World) (mc mc' : Machine) (hm : 0 < mc.maxc) (hm' : 0 < mc'.maxc) (r r' : ReconSrc) (h : SameRecon r r') :
    computeRecon w mc r = computeRecon w mc' r' := by
  obtain ⟨data, ran, rfl, hn, hd, hr, ⟨j, hj, pd⟩, j', hj', pr⟩ := h
  unfold computeRecon
  simp only
  rw [Recon.run_copies hn r.share r.t r.a r.smooth mc.maxc mc'.maxc hm.ne' hm'.ne' r.scheme r.data r.ran data ran hd hr j j' hj hj' pd pr]

/-- **C143.** Power and correlation of catalogs, several species, fields and reconstructions, auto or cross, are the same object (or error) on any number of
ranks, for any chunk size and distribution; objects of a reconstruction may stand several times in their catalogs. -/
theorem call_sources_partial (w : World) (hn : 0 < w.ncells) (mc mc' : Machine) (hl : SameLayout mc mc') (src src' : Nat → Source)
    (hs : ∀ s, SameSource (src s) (src' s)) (hf : Fits mc src) (hf' : Fits mc' src') (k : FftObj.Kind) (first : FftObj.Src) (sec : Option FftObj.Src) (g : FftObj.Args)
    (hb : ∀ c, Pipe.checked w k first sec g = .ok c → BinsOk w mc k c.1) :
    call w mc src k first sec g = call w mc' src' k first sec g := by
  refine call_related w mc mc' src src' Eq ?_ (Pipe.powers_eq w) hl k first sec g hb
  intro V s
  have h := hs s
  have p := hf.2 s
  have q := hf'.2 s
  generalize src s = a at *
  generalize src' s = b at *
  by_cases hM : Merged a b
  · obtain ⟨f, h1, h2⟩ := merged_field w hn mc mc' V a b hM hf.1 hf'.1 p.1 p.2 q.1 q.2
    exact .inl ⟨f, f, h1, h2, rfl⟩
  · cases a with
    | mesh c => exact (hM h).elim
    | species comp n s sp => exact (hM h).elim
    | recon r =>
      cases b with
      | mesh c => exact (hM h).elim
      | species comp n s sp => exact (hM h).elim
      | recon r' =>
        have e : compute w mc' V (.recon r') = compute w mc V (.recon r) := (recon_same w mc mc' hf.1 hf'.1 r r' h).symm
        rw [e]
        cases hc : compute w mc V (.recon r) with
        | ok f => exact .inl ⟨f, f, rfl, rfl, rfl⟩
        | error e => exact .inr ⟨e, rfl, rfl⟩

/-- **C143.** The coefficients are those of the reconstructed field, cell by cell; there is neither `N` nor a shot noise. -/
theorem recon_coef (w : World) (mc : Machine) (V : ℚ) (r : ReconSrc) (hn : r.n = w.ncells) (F : Fin r.n → ℚ)
    (hF : Recon.run r.share r.t r.a r.smooth mc.maxc r.scheme r.data r.ran = .ok (some F)) :
    ∃ f, compute w mc V (.recon r) = .ok f ∧ f.N = none ∧ f.shot = none ∧
      ∀ m, f.coef m = Pipe.sum ((List.finRange r.n).map fun c => Pipe.scale (F c / r.n) (w.tw m c.val)) := by
  refine ⟨⟨Pipe.r2c w (numbered F), none, none⟩, ?_, rfl, rfl, fun m => ?_⟩
  · show computeRecon w mc r = _
    unfold computeRecon
    rw [hF]
    rfl
  · show Pipe.r2c w (numbered F) m = _
    unfold Pipe.r2c
    rw [← hn, ← List.map_coe_finRange_eq_range, List.map_map]
    congr 1
    apply List.map_congr_left
    intro c _
    simp only [Function.comp]
    unfold numbered
    rw [dif_pos c.isLt]

/-- **C143.** Data without structure: the power of a reconstruction is that of the density of the data less that of the randoms. -/
theorem recon_uniform (w : World) (mc : Machine) (hm : 0 < mc.maxc) (V : ℚ) (r : ReconSrc) (h0 : r.n ≠ 0) (hn : r.n = w.ncells) (hd : r.data.flatten ≠ [])
    (hr : r.ran.flatten ≠ []) (hl : Recon.norm2 r.a.los ≠ 0) (hz : ∀ x, r.t.c2r (fun _ => (0, 0)) x = 0)
    (hu : ∀ q, r.t.k q ≠ (fun _ => 0) → r.t.r2c (Recon.density r.share r.data.flatten) q = (0, 0)) :
    ∃ f, compute w mc V (.recon r) = .ok f ∧ ∀ m, f.coef m = Pipe.sum ((List.finRange r.n).map fun c =>
      Pipe.scale ((Recon.density r.share r.data.flatten c - Recon.density r.share r.ran.flatten c) / r.n) (w.tw m c.val)) := by
  obtain ⟨f, h, -, -, hc⟩ := recon_coef w mc V r hn _
    (Recon.run_uniform h0 r.share r.t r.a r.smooth mc.maxc hm.ne' r.scheme r.data r.ran hd hr hl hz hu)
  exact ⟨f, h, hc⟩

/-! ## Shifts -/

theorem shift_cells {w : World} (σ : Shift w) (f f' : Nat → ℚ) (h : ∀ x < w.ncells, f' (σ.cell x) = f x) (m : Nat) :
    Pipe.r2c w f' m = Pipe.mul (σ.phase m) (Pipe.r2c w f m) := by
  have e : Pipe.r2c w f' m = Pipe.sum (((List.range w.ncells).map σ.cell).map fun x => Pipe.scale (f' x / w.ncells) (w.tw m x)) :=
    Pipe.sum_perm (σ.perm.symm.map _)
  rw [e]
  unfold Pipe.r2c
  rw [← Pipe.mul_sum, List.map_map, List.map_map]
  congr 1
  apply List.map_congr_left
  intro x hx
  simp only [Function.comp, h x (List.mem_range.mp hx), σ.tw, Pipe.mul_scale]

theorem shift_direct {w : World} (σ : Shift w) (m : Nat) (rows : List Paint.Row) : Pipe.direct w m (rows.map σ.row) = Pipe.mul (σ.phase m) (Pipe.direct w m rows) := by
  unfold Pipe.direct
  rw [← Pipe.mul_sum, List.map_map, List.map_map]
  congr 1
  apply List.map_congr_left
  intro x _
  simp only [Function.comp, Shift.row, Pipe.shift_window, Pipe.mul_scale]

/-- Fields that differ by the phases of a shift. -/
def Turned {w : World} (σ : Shift w) (f f' : Fld) : Prop := f.N = f'.N ∧ f.shot = f'.shot ∧ ∀ m, f'.coef m = Pipe.mul (σ.phase m) (f.coef m)

theorem turned_powers {w : World} (σ : Shift w) : Powers w (Turned σ) := by
  rintro f1 f1' f2 f2' ⟨n1, s1, c1⟩ ⟨-, -, c2⟩
  refine ⟨n1, s1, fun V m => ?_⟩
  unfold Pipe.power
  split
  · rfl
  · rw [c1, c2]
    have := σ.unit m
    unfold Pipe.norm2 at this
    unfold Pipe.scale Pipe.mul Pipe.conj
    apply Pipe.ext <;> simp only
    · linear_combination -V * ((f1.coef m).re * (f2.coef m).re + (f1.coef m).im * (f2.coef m).im) * this
    · linear_combination -V * ((f1.coef m).im * (f2.coef m).re - (f1.coef m).re * (f2.coef m).im) * this

/-- A species moved by a shift. -/
def moveSp {w : World} (σ : Shift w) (x : SpeciesMesh.Species) : SpeciesMesh.Species := ⟨x.name, x.ranks.map fun l => l.map σ.row⟩

/-- A reconstruction of catalogs moved by a whole number of cells, whatever the ranks. -/
def MovedRecon {w : World} (σ : Shift w) (r r' : ReconSrc) : Prop :=
  ∃ (S : Recon.Sym r.share r.t) (data ran : List (List Recon.V3)), r' = { r with data := data, ran := ran } ∧ r.n = w.ncells ∧ r.data.flatten ≠ [] ∧ r.ran.flatten ≠ [] ∧
    S.axes = 1 ∧ (∀ d, S.flip d = 1) ∧ (∀ q, S.good q) ∧ (∀ c, (S.cell c).val = σ.cell c.val) ∧
    data.flatten.Perm (r.data.flatten.map S.pos) ∧ ran.flatten.Perm (r.ran.flatten.map S.pos)

/-- All kinds of sources, moved. -/
def Moved {w : World} (σ : Shift w) : Source → Source → Prop
  | .mesh (.particles c n s rows), b => b = .mesh (.particles c n s (rows.map fun l => l.map σ.row))
  | .mesh (.cells n s f), .mesh (.cells n' s' f') => n' = n ∧ s' = s ∧ ∀ x < w.ncells, f' (σ.cell x) = f x
  | .species comp n s sp, b => b = .species comp n s (sp.map (moveSp σ)) ∧ speciesW sp ≠ 0 ∧ ∀ x ∈ sp, SpeciesMesh.weightOf x ≠ 0
  | .recon r, .recon r' => MovedRecon σ r r'
  | _, _ => False

theorem numbered_of {n : Nat} (f : Fin n → ℚ) (c : Fin n) : numbered f c.val = f c := by
  unfold numbered
  rw [dif_pos c.isLt]

theorem recon_shifted {w : World} (hn : 0 < w.ncells) (σ : Shift w) (mc mc' : Machine) (hm : 0 < mc.maxc) (hm' : 0 < mc'.maxc) (r r' : ReconSrc)
    (h : MovedRecon σ r r') :
    (∃ f f', computeRecon w mc r = .ok f ∧ computeRecon w mc' r' = .ok f' ∧ Turned σ f f') ∨ ∃ e, computeRecon w mc r = .error e ∧ computeRecon w mc' r' = .error e := by
  obtain ⟨S, data, ran, rfl, en, hd, hr, ha, hfl, hg, hcell, pd, pr⟩ := h
  have h0 : r.n ≠ 0 := by omega
  have hlos : (fun d => r.a.los (S.axes d)) = r.a.los := by rw [ha]; rfl
  unfold computeRecon
  simp only
  by_cases hl : Recon.norm2 r.a.los = 0
  · right
    refine ⟨.recon .assertion, ?_⟩
    unfold Recon.run
    simp [Recon.prepareLos, hl, bind, Except.bind, toFld]
  · have hp : Recon.prepareLos r.a.los = .ok fun i => r.a.los i / Recon.norm2 r.a.los := by simp [Recon.prepareLos, hl]
    have e := Recon.run_eq h0 r.share r.t r.a r.smooth mc.maxc hm.ne' r.scheme r.data r.ran hd hr _ hp
    have e' := Recon.run_moved h0 S r.a r.smooth mc.maxc mc'.maxc hm.ne' hm'.ne' r.scheme r.data r.ran data ran hd hr pd pr 1 (by norm_num)
      (fun d => by rw [hfl]) (fun q hq => (hq (hg q)).elim) _ e
    rw [hlos] at e'
    left
    rw [e, e']
    simp only [Option.map_some]
    refine ⟨_, _, rfl, rfl, rfl, rfl, fun m => ?_⟩
    apply shift_cells σ
    intro x hx
    have hx' : x < r.n := by omega
    have e1 := hcell ⟨x, hx'⟩
    rw [← e1, numbered_of, Equiv.symm_apply_apply]
    exact (numbered_of _ ⟨x, hx'⟩).symm

theorem species_shifted {w : World} (hn : 0 < w.ncells) (σ : Shift w) (mc mc' : Machine) (hm : 0 < mc.maxc) (hm' : 0 < mc'.maxc) (V : ℚ) (comp : Nat → ℚ) (n : Option Nat)
    (s : Option ℚ) (sp : List SpeciesMesh.Species) (hP : ∀ x ∈ sp, x.ranks.length ≤ 2 * mc.maxc) (hP' : ∀ x ∈ sp, x.ranks.length ≤ 2 * mc'.maxc)
    (hW : speciesW sp ≠ 0) (hx : ∀ x ∈ sp, SpeciesMesh.weightOf x ≠ 0) :
    ∃ f f', compute w mc V (.species comp n s sp) = .ok f ∧ compute w mc' V (.species comp n s (sp.map (moveSp σ))) = .ok f' ∧ Turned σ f f' := by
  have hr : SpeciesMesh.allRows (sp.map (moveSp σ)) = (SpeciesMesh.allRows sp).map σ.row := by
    unfold SpeciesMesh.allRows
    rw [List.map_map, List.map_flatten, List.map_map]
    congr 1
    apply List.map_congr_left
    intro x _
    exact Pipe.selected_map σ.row (fun _ => rfl) x.ranks
  have eW : speciesW (sp.map (moveSp σ)) = speciesW sp := by
    unfold speciesW
    rw [hr, List.map_map]
    rfl
  have eW2 : speciesW2 (sp.map (moveSp σ)) = speciesW2 sp := by
    unfold speciesW2
    rw [hr, List.map_map]
    rfl
  have ew : ∀ x, SpeciesMesh.weightOf (moveSp σ x) = SpeciesMesh.weightOf x := by
    intro x
    unfold SpeciesMesh.weightOf
    have := Pipe.selected_map σ.row (fun _ => rfl) x.ranks
    show ((Paint.selected (x.ranks.map fun l => l.map σ.row)).map Paint.Row.weight).sum = _
    rw [this, List.map_map]
    rfl
  have hx' : ∀ y ∈ sp.map (moveSp σ), SpeciesMesh.weightOf y ≠ 0 := by
    intro y hy
    obtain ⟨x, hxs, rfl⟩ := List.mem_map.mp hy
    rw [ew]
    exact hx x hxs
  obtain ⟨f, hf⟩ := species_ok w hn mc hm V comp n s sp hP hW hx
  obtain ⟨f', hf'⟩ := species_ok w hn mc' hm' V comp n s (sp.map (moveSp σ)) (by
    intro y hy
    obtain ⟨x, hxs, rfl⟩ := List.mem_map.mp hy
    unfold moveSp
    simpa using hP' x hxs) (eW ▸ hW) hx'
  obtain ⟨a1, a2, -, a3⟩ := species_direct w hn mc V comp n s sp f hf
  obtain ⟨b1, b2, -, b3⟩ := species_direct w hn mc' V comp n s _ f' hf'
  refine ⟨f, f', hf, hf', by rw [a2, b2, hr, List.length_map], by rw [a3 hx, b3 hx', eW, eW2], fun m => ?_⟩
  rw [a1, b1, eW, hr, shift_direct, Pipe.mul_scale]

/-- **C143.** Power and correlation of catalogs, several species, fields and reconstructions do not change if all of them are moved by the same whole number
of cells. -/
theorem call_moved (w : World) (hn : 0 < w.ncells) (σ : Shift w) (mc mc' : Machine) (hl : SameLayout mc mc') (src src' : Nat → Source)
    (hs : ∀ s, Moved σ (src s) (src' s)) (hf : Fits mc src) (hf' : Fits mc' src') (k : FftObj.Kind) (first : FftObj.Src) (sec : Option FftObj.Src) (g : FftObj.Args)
    (hb : ∀ c, Pipe.checked w k first sec g = .ok c → BinsOk w mc k c.1) :
    call w mc src k first sec g = call w mc' src' k first sec g := by
  refine call_related w mc mc' src src' (Turned σ) ?_ (turned_powers σ) hl k first sec g hb
  intro V s
  have h := hs s
  have p := hf.2 s
  have q := hf'.2 s
  generalize src s = a at *
  generalize src' s = b at *
  cases a with
  | recon r =>
    cases b with
    | mesh c => exact h.elim
    | species comp n s sp => exact h.elim
    | recon r' => exact recon_shifted hn σ mc mc' hf.1 hf'.1 r r' h
  | species comp n s sp =>
    obtain ⟨rfl, hW, hx⟩ : b = .species comp n s (sp.map (moveSp σ)) ∧ speciesW sp ≠ 0 ∧ ∀ x ∈ sp, SpeciesMesh.weightOf x ≠ 0 := h
    left
    refine species_shifted hn σ mc mc' hf.1 hf'.1 V comp n s sp (p.2 _ _ _ _ rfl) ?_ hW hx
    intro x hxs
    have := q.2 _ _ _ _ rfl (moveSp σ x) (List.mem_map.mpr ⟨x, hxs, rfl⟩)
    unfold moveSp at this
    simpa using this
  | mesh c =>
    left
    cases c with
    | cells n s f =>
      cases b with
      | recon r => exact h.elim
      | species comp n s sp => exact h.elim
      | mesh c' =>
        cases c' with
        | particles c n s r => exact h.elim
        | cells n' s' f' =>
          obtain ⟨rfl, rfl, hc⟩ := h
          exact ⟨_, _, rfl, rfl, rfl, rfl, fun m => shift_cells σ f f' hc m⟩
    | particles c n s rows =>
      have h : b = .mesh (.particles c n s (rows.map fun l => l.map σ.row)) := h
      subst h
      obtain ⟨f, h1, h2⟩ := mesh_ok w mc V (.particles c n s rows) hf.1 fun _ _ _ _ e => p.1 _ _ _ _ (by rw [e])
      obtain ⟨f', h1', h2'⟩ := mesh_ok w mc' V (.particles c n s (rows.map fun l => l.map σ.row)) hf'.1 fun _ _ _ _ e => q.1 _ _ _ _ (by rw [e])
      refine ⟨f, f', h2, h2', ?_⟩
      obtain ⟨a1, a2, a3⟩ := Pipe.compute_direct w hn mc V c n s rows f h1
      obtain ⟨b1, b2, b3⟩ := Pipe.compute_direct w hn mc' V c n s _ f' h1'
      have hsel := Pipe.selected_map σ.row (fun _ => rfl) rows
      have hW : Pipe.totalW (rows.map fun l => l.map σ.row) = Pipe.totalW rows := by unfold Pipe.totalW; rw [hsel, List.map_map]; rfl
      have hW2 : Pipe.totalW2 (rows.map fun l => l.map σ.row) = Pipe.totalW2 rows := by unfold Pipe.totalW2; rw [hsel, List.map_map]; rfl
      refine ⟨by rw [a2, b2, hsel, List.length_map], by rw [a3, b3, hW, hW2], fun m => ?_⟩
      rw [a1, b1, hW, hsel]
      by_cases hp : 0 < Pipe.totalW rows
      · rw [if_pos hp, if_pos hp, shift_direct, Pipe.mul_scale]
      · rw [if_neg hp, if_neg hp, ← Pipe.mul_scale]
        congr 1
        exact Pipe.shift_r2c σ (fun _ => 1) (fun _ => 1) (fun _ => rfl) m

end NBK.MeshPower
