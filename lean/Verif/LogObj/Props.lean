import Verif.LogObj.Model
import Verif.Mock.Props
import Verif.Seeds.Props
import Verif.Plain.Props

/-!
# C117: the LogNormalCatalog object
-/
set_option linter.unusedSimpArgs false
namespace NBK.LogObj
open NBK.Mock (Vec Cell)
open NBK.Plain (Tok Dict put get update get_put get_update)

variable {σ : Type}

/-- `x` is the periodic image of `y` in the box `[0, L)`. -/
def Image (x y L : ℚ) : Prop := (0 ≤ x ∧ x < L) ∧ ∃ k : Int, x = y + k * L

theorem wrap_image (y L : ℚ) (hL : 0 < L) : Image (Mock.wrap y L) y L :=
  ⟨Mock.wrap_mem y L hL, -⌊y / L⌋, by unfold Mock.wrap; push_cast; ring⟩

/-- There is only one image. -/
theorem image_unique (x x' y L : ℚ) (hL : 0 < L) (h : Image x y L) (h' : Image x' y L) : x = x' := by
  obtain ⟨⟨a, b⟩, k, hk⟩ := h
  obtain ⟨⟨a', b'⟩, k', hk'⟩ := h'
  have h1 : ((k - k' : Int) : ℚ) * L < 1 * L := by push_cast; linarith
  have h2 : (-1 : ℚ) * L < ((k - k' : Int) : ℚ) * L := by push_cast; linarith
  have h3 := lt_of_mul_lt_mul_right h1 hL.le
  have h4 := lt_of_mul_lt_mul_right h2 hL.le
  have h5 : k - k' < 1 := by exact_mod_cast h3
  have h6 : -1 < k - k' := by exact_mod_cast h4
  have : k = k' := by omega
  rw [hk, hk', this]

theorem image_trans (x y w d L : ℚ) (h : Image x (y + d) L) (h' : ∃ k : Int, y = w + k * L) : Image x (w + d) L := by
  obtain ⟨h1, k, hk⟩ := h
  obtain ⟨k', hk'⟩ := h'
  exact ⟨h1, k + k', by rw [hk, hk']; push_cast; ring⟩

/-- What the arguments stand for. -/
structure Given (e : Env σ) (g : Args) (draw : Nat) (cosmo : Nat) (z : ℚ) (seed cs : Nat) (n : Cell) (b : Vec) : Prop where
  hcosmo : g.cosmo = some cosmo ∨ (g.cosmo = none ∧ g.plin.cosmo = some cosmo)
  hredshift : g.redshift = some z ∨ (g.redshift = none ∧ g.plin.redshift = some z)
  hseed : g.seed = some seed ∨ (g.seed = none ∧ seed = draw)
  hcosmoSeed : g.cosmoSeed = some cs ∨ (g.cosmoSeed = none ∧ cs = seed)
  ranks : 0 < e.ranks
  mesh : (three g.nmesh).bind meshOf = .ok n
  box : three g.boxSize = .ok b

/-- Without a cosmology or a redshift in the arguments or in the power spectrum: ValueError. -/
theorem missing (e : Env σ) (g : Args) (draw : Nat) (h : (g.cosmo = none ∧ g.plin.cosmo = none) ∨ (g.redshift = none ∧ g.plin.redshift = none)) :
    new e g draw = .error .valueError := by
  unfold new
  rcases h with ⟨h1, h2⟩ | ⟨h1, h2⟩
  · rw [h1, h2]; rfl
  · rw [h1, h2]
    cases g.cosmo.or g.plin.cosmo <;> rfl

theorem new_eq (e : Env σ) (g : Args) (draw cosmo : Nat) (z : ℚ) (seed cs : Nat) (n : Cell) (b : Vec) (h : Given e g draw cosmo z seed cs n b) :
    new e g draw = (makeSource e g cosmo z (some seed) (some cs)).bind fun s =>
      if (s.1.map List.length).sum = 0 then .error .valueError
      else .ok ⟨cosmo, attrsOf g cosmo z (some seed) (some cs) s.2.1 s.2.2, s.1, s.2.1, s.2.2⟩ := by
  have h1 : g.cosmo.or g.plin.cosmo = some cosmo := by rcases h.hcosmo with h | ⟨h, h'⟩ <;> simp [*]
  have h2 : g.redshift.or g.plin.redshift = some z := by rcases h.hredshift with h | ⟨h, h'⟩ <;> simp [*]
  have h3 : g.seed.getD draw = seed := by rcases h.hseed with h | ⟨h, h'⟩ <;> simp [*]
  have h4 : g.cosmoSeed.getD seed = cs := by rcases h.hcosmoSeed with h | ⟨h, h'⟩ <;> simp [*]
  have h5 : ∀ x : Option Nat, (List.replicate e.ranks x).getD 0 none = x := by
    intro x
    obtain ⟨k, hk⟩ := Nat.exists_eq_succ_of_ne_zero (Nat.pos_iff_ne_zero.1 h.ranks)
    rw [hk, List.replicate_succ]; rfl
  unfold new
  rw [h1, h2]
  simp only [Seeds.resolve2_spec, h3, h4, h5]
  rfl

/-- The rows of the sampled points. -/
theorem source_spec (e : Env σ) (g : Args) (draw cosmo : Nat) (z : ℚ) (seed cs : Nat) (n : Cell) (b : Vec) (h : Given e g draw cosmo z seed cs n b)
    (hok : Mock.Ok (mockEnv e g (some seed) (some cs) n b) (e.rav n) (e.own n)) :
    ∃ rows pos disp, makeSource e g cosmo z (some seed) (some cs) = .ok (rows, n, b) ∧
      Mock.sample (mockEnv e g (some seed) (some cs) n b) (e.rav n) (e.own n) = .ok (pos, disp) ∧
      rows.flatten = List.zipWith (rowOf (e.growth cosmo z) (e.efunc cosmo z) z b) pos.flatten disp.flatten ∧
      rows.map List.length = pos.map List.length ∧ pos.flatten.length = (Mock.objects (mockEnv e g (some seed) (some cs) n b)).length := by
  obtain ⟨pos, disp, h1, h2, ⟨h3, h4⟩, h5, h6⟩ := Mock.sample_spec _ _ _ hok
  obtain ⟨z1, z2⟩ := Mock.zipWith_flatten (rowOf (e.growth cosmo z) (e.efunc cosmo z) z b) pos disp h6.symm
  refine ⟨List.zipWith (fun p d => List.zipWith (rowOf (e.growth cosmo z) (e.efunc cosmo z) z b) p d) pos disp, pos, disp, ?_, h1, z1, z2, h3⟩
  unfold makeSource
  rw [h.mesh, h.box]
  simp only [bind, Except.bind, h1]

/-- C117: the catalog. There is one row per sampled object, in the order of the cells; it is at the periodic image of the place of the object in its cell plus
the displacement of the cell, the velocity offset is the growth rate times the displacement, and the velocity is `100 E(z) / (1 + z)` times that. -/
theorem catalog_spec_partial (e : Env σ) (g : Args) (draw cosmo : Nat) (z : ℚ) (seed cs : Nat) (n : Cell) (b : Vec)
    (h : Given e g draw cosmo z seed cs n b) (hb : 0 < b.x ∧ 0 < b.y ∧ 0 < b.z) (m : Mock.Env σ) (hm : m = mockEnv e g (some seed) (some cs) n b)
    (hok : Mock.Ok m (e.rav n) (e.own n)) (h0 : Mock.objects m ≠ []) :
    ∃ o, new e g draw = .ok o ∧ o.cosmo = cosmo ∧ o.nmesh = n ∧ o.boxSize = b ∧ o.rows.flatten.length = (Mock.objects m).length ∧
      o.rows.map List.length = (e.own n).map (fun r => (r.map (Mock.count m)).sum) ∧
      ∀ j c, (Mock.objects m)[j]? = some c → ∃ u r, Mock.shift m j = some u ∧ o.rows.flatten[j]? = some r ∧
        Image r.pos.x ((c.i * (b.x / n.i) + b.z / n.k * u.x) + (m.disp c).x) b.x ∧
        Image r.pos.y ((c.j * (b.y / n.j) + b.z / n.k * u.y) + (m.disp c).y) b.y ∧
        Image r.pos.z ((c.k * (b.z / n.k) + b.z / n.k * u.z) + (m.disp c).z) b.z ∧
        r.off = ⟨e.growth cosmo z * (m.disp c).x, e.growth cosmo z * (m.disp c).y, e.growth cosmo z * (m.disp c).z⟩ ∧
        r.vel = ⟨100 * e.efunc cosmo z / (1 + z) * r.off.x, 100 * e.efunc cosmo z / (1 + z) * r.off.y, 100 * e.efunc cosmo z / (1 + z) * r.off.z⟩ := by
  subst hm
  generalize hm : mockEnv e g (some seed) (some cs) n b = m at *
  obtain ⟨rows, pos, disp, r1, r2, r3, r4, r5⟩ := source_spec e g draw cosmo z seed cs n b h (hm ▸ hok)
  rw [hm] at r2 r5
  obtain ⟨pos', disp', s1, s2, ⟨s3, s4⟩, s5, s6⟩ := Mock.sample_spec _ _ _ hok
  rw [r2] at s1
  cases s1
  have hmesh : n.i ≠ 0 ∧ n.j ≠ 0 ∧ n.k ≠ 0 := by
    have hx := hok.hx; have hy := hok.hy; have hz := hok.hz
    rw [← hm] at hx hy hz
    refine ⟨fun h => hx ?_, fun h => hy ?_, fun h => hz ?_⟩ <;> simp [mockEnv, h]
  have hdl : disp.flatten.length = pos.flatten.length := by rw [s2, s3, List.length_map]
  have hlen : rows.flatten.length = (Mock.objects m).length := by rw [r3, List.length_zipWith, hdl, Nat.min_self, s3]
  have hsum : (rows.map List.length).sum ≠ 0 := by
    rw [← List.length_flatten, hlen]
    exact fun hh => h0 (List.length_eq_zero_iff.1 hh)
  refine ⟨⟨cosmo, attrsOf g cosmo z (some seed) (some cs) n b, rows, n, b⟩, ?_, rfl, rfl, rfl, hlen, by rw [← s5, ← r4], ?_⟩
  · rw [new_eq e g draw cosmo z seed cs n b h, r1]
    simp only [Except.bind, if_neg hsum]
  · intro j c hc
    have hj : j < (Mock.objects m).length := by
      by_contra hh
      rw [List.getElem?_eq_none (by omega)] at hc
      cases hc
    have hp : j < pos.flatten.length := by omega
    have hpj := s4 j
    rw [hc] at hpj
    cases hu : Mock.shift m j with
    | none =>
      rw [hu, List.getElem?_eq_getElem hp] at hpj
      cases hpj
    | some u =>
      rw [hu] at hpj
      have hdj : disp.flatten[j]? = some (m.disp c) := by rw [s2, List.getElem?_map, hc]; rfl
      have hpj' : pos.flatten[j]? = some (Mock.place m (Mock.corner m c) u) := hpj
      refine ⟨u, rowOf (e.growth cosmo z) (e.efunc cosmo z) z b (Mock.place m (Mock.corner m c) u) (m.disp c), rfl, ?_, ?_, ?_, ?_, rfl, ?_⟩
      · dsimp only
        rw [r3, List.getElem?_zipWith, hpj', hdj]
      · have hx : (b.x / n.i) * n.i = b.x := div_mul_cancel₀ _ (by exact_mod_cast hmesh.1)
        refine image_trans _ _ _ _ _ (wrap_image _ _ hb.1) ⟨-⌊((c.i : ℚ) * (b.x / n.i) + b.z / n.k * u.x) / b.x⌋, ?_⟩
        rw [← hm]
        simp only [Mock.place, Mock.corner, mockEnv, Mock.wrap, hx]
        push_cast; ring
      · have hx : (b.y / n.j) * n.j = b.y := div_mul_cancel₀ _ (by exact_mod_cast hmesh.2.1)
        refine image_trans _ _ _ _ _ (wrap_image _ _ hb.2.1) ⟨-⌊((c.j : ℚ) * (b.y / n.j) + b.z / n.k * u.y) / b.y⌋, ?_⟩
        rw [← hm]
        simp only [Mock.place, Mock.corner, mockEnv, Mock.wrap, hx]
        push_cast; ring
      · have hx : (b.z / n.k) * n.k = b.z := div_mul_cancel₀ _ (by exact_mod_cast hmesh.2.2)
        refine image_trans _ _ _ _ _ (wrap_image _ _ hb.2.2) ⟨-⌊((c.k : ℚ) * (b.z / n.k) + b.z / n.k * u.z) / b.z⌋, ?_⟩
        rw [← hm]
        simp only [Mock.place, Mock.corner, mockEnv, Mock.wrap, hx]
        push_cast; ring
      · simp only [rowOf, scale, Vec.mk.injEq]
        refine ⟨?_, ?_, ?_⟩ <;> ring

/-- Without objects: ValueError. -/
theorem no_objects (e : Env σ) (g : Args) (draw cosmo : Nat) (z : ℚ) (seed cs : Nat) (n : Cell) (b : Vec) (h : Given e g draw cosmo z seed cs n b)
    (hok : Mock.Ok (mockEnv e g (some seed) (some cs) n b) (e.rav n) (e.own n)) (h0 : Mock.objects (mockEnv e g (some seed) (some cs) n b) = []) :
    new e g draw = .error .valueError := by
  obtain ⟨rows, pos, disp, r1, r2, r3, r4, r5⟩ := source_spec e g draw cosmo z seed cs n b h hok
  rw [h0] at r5
  rw [new_eq e g draw cosmo z seed cs n b h, r1]
  have : (rows.map List.length).sum = 0 := by rw [r4, ← List.length_flatten, r5]; rfl
  simp only [Except.bind, if_pos this]

/-- The mean number of objects is the number density times the volume of the box. -/
theorem mean_number (e : Env σ) (g : Args) (seed cs : Option Nat) (n : Cell) (b : Vec) (hpos : ∀ x, 0 < e.exp x) (hn : n.i ≠ 0 ∧ n.j ≠ 0 ∧ n.k ≠ 0) :
    ((Mock.cells n).map (Mock.cellmean (mockEnv e g seed cs n b))).sum = g.nbar * (b.x * b.y * b.z) := by
  have hne : Mock.ncells n ≠ 0 := by
    unfold Mock.ncells
    exact Nat.mul_ne_zero (Nat.mul_ne_zero hn.1 hn.2.1) hn.2.2
  have := Mock.mean_total (mockEnv e g seed cs n b) hpos hne
  refine this.trans ?_
  have h1 : (n.i : ℚ) ≠ 0 := by exact_mod_cast hn.1
  have h2 : (n.j : ℚ) ≠ 0 := by exact_mod_cast hn.2.1
  have h3 : (n.k : ℚ) ≠ 0 := by exact_mod_cast hn.2.2
  simp only [mockEnv, Mock.ncells]
  push_cast
  field_simp

/-- The names that the catalog writes itself. -/
def ownNames : List Tok := [sNbar, sRedshift, sBias, sUnitary, sInverted, sCosmoSeed, sSeed, sNmesh, sBoxSize]

/-- C117: the meta-data. What the catalog was made with goes before what the power spectrum says. -/
theorem attrs_spec_partial (e : Env σ) (g : Args) (draw cosmo : Nat) (z : ℚ) (seed cs : Nat) (n : Cell) (b : Vec) (h : Given e g draw cosmo z seed cs n b)
    (hnd : ∀ a, g.plin.attrs = some a → (a.map Prod.fst).Nodup) (o : Obj) (ho : new e g draw = .ok o) :
    get sNbar o.attrs = some (.num g.nbar) ∧ get sRedshift o.attrs = some (.num z) ∧ get sBias o.attrs = some (.num g.bias) ∧
    get sUnitary o.attrs = some (.flag g.unitary) ∧ get sInverted o.attrs = some (.flag g.inverted) ∧
    get sCosmoSeed o.attrs = some (.seed (some cs)) ∧ get sSeed o.attrs = some (.seed (some seed)) ∧
    get sNmesh o.attrs = some (.mesh n) ∧ get sBoxSize o.attrs = some (.vec b) ∧
    (g.plin.attrs = none → get sCosmo o.attrs = some (.cosmo cosmo)) ∧
    ∀ x, x ∉ ownNames → ∀ a, g.plin.attrs = some a → get x o.attrs = get x a := by
  rw [new_eq e g draw cosmo z seed cs n b h] at ho
  obtain ⟨s, hs1, hs2⟩ : ∃ s, makeSource e g cosmo z (some seed) (some cs) = .ok s ∧ s.2 = (n, b) := by
    unfold makeSource at ho ⊢
    rw [h.mesh, h.box] at ho ⊢
    simp only [bind, Except.bind] at ho ⊢
    cases hh : Mock.sample (mockEnv e g (some seed) (some cs) n b) (e.rav n) (e.own n) with
    | error er => rw [hh] at ho; cases ho
    | ok q => exact ⟨_, rfl, rfl⟩
  rw [hs1] at ho
  simp only [Except.bind] at ho
  split at ho
  · cases ho
  · cases ho
    rw [hs2]
    dsimp only
    unfold attrsOf
    refine ⟨?_, ?_, ?_, ?_, ?_, ?_, ?_, ?_, ?_, ?_, ?_⟩
    any_goals (simp only [get_put]; rfl)
    · intro ha
      rw [ha]
      simp only [get_put]
      rfl
    · intro x hx a ha
      simp only [ownNames, List.mem_cons, List.not_mem_nil, or_false, not_or] at hx
      obtain ⟨x1, x2, x3, x4, x5, x6, x7, x8, x9⟩ := hx
      rw [ha]
      simp only [get_put, if_neg (fun h => x1 (Eq.symm h)), if_neg (fun h => x2 (Eq.symm h)), if_neg (fun h => x3 (Eq.symm h)), if_neg (fun h => x4 (Eq.symm h)),
        if_neg (fun h => x5 (Eq.symm h)), if_neg (fun h => x6 (Eq.symm h)), if_neg (fun h => x7 (Eq.symm h)), if_neg (fun h => x8 (Eq.symm h)), if_neg (fun h => x9 (Eq.symm h))]
      rw [get_update _ _ (hnd a ha)]
      cases get x a <;> rfl

/-- C117: a catalog made again from the meta-data of another one is the same, whatever the root would draw then. -/
theorem reproduce (e : Env σ) (g : Args) (draw draw' cosmo : Nat) (z : ℚ) (seed cs : Nat) (n : Cell) (b : Vec) (h : Given e g draw cosmo z seed cs n b)
    (hn : 1 ≤ n.i ∧ 1 ≤ n.j ∧ 1 ≤ n.k) :
    new e { g with
      cosmo := some cosmo
      redshift := some z
      seed := some seed
      cosmoSeed := some cs
      boxSize := .vec [b.x, b.y, b.z]
      nmesh := .vec [(n.i : ℚ), (n.j : ℚ), (n.k : ℚ)] } draw' = new e g draw := by
  have hm : (three (.vec [(n.i : ℚ), (n.j : ℚ), (n.k : ℚ)])).bind meshOf = .ok n := by
    simp only [three, Except.bind, meshOf]
    rw [if_pos ⟨by exact_mod_cast hn.1, by exact_mod_cast hn.2.1, by exact_mod_cast hn.2.2⟩]
    simp
  rw [new_eq e g draw cosmo z seed cs n b h]
  refine (new_eq e _ draw' cosmo z seed cs n b ⟨Or.inl rfl, Or.inl rfl, Or.inl rfl, Or.inl rfl, h.ranks, hm, rfl⟩).trans ?_
  unfold makeSource
  rw [h.mesh, h.box, hm]
  rfl

/-- C117: the rows do not depend on the number of ranks and on which rank has which cells. -/
theorem ranks_irrelevant (e e' : Env σ) (g : Args) (draw cosmo : Nat) (z : ℚ) (seed cs : Nat) (n : Cell) (b : Vec)
    (he : e' = { e with
      ranks := e'.ranks
      rav := e'.rav
      own := e'.own })
    (h : Given e g draw cosmo z seed cs n b) (h' : 0 < e'.ranks)
    (hok : Mock.Ok (mockEnv e g (some seed) (some cs) n b) (e.rav n) (e.own n)) (hok' : Mock.Ok (mockEnv e g (some seed) (some cs) n b) (e'.rav n) (e'.own n)) :
    (new e g draw).map (fun o => (o.rows.flatten, o.attrs)) = (new e' g draw).map (fun o => (o.rows.flatten, o.attrs)) := by
  obtain ⟨pos, disp, pos', disp', s1, s2, s3, s4⟩ := Mock.sample_indep _ _ _ _ _ hok hok'
  have hg : Given e' g draw cosmo z seed cs n b := ⟨h.hcosmo, h.hredshift, h.hseed, h.hcosmoSeed, h', h.mesh, h.box⟩
  have hm : mockEnv e' g (some seed) (some cs) n b = mockEnv e g (some seed) (some cs) n b := by rw [he]; rfl
  have hf : e'.growth = e.growth := by rw [he]
  have hE : e'.efunc = e.efunc := by rw [he]
  obtain ⟨rows, p, d, r1, r2, r3, r4, r5⟩ := source_spec e g draw cosmo z seed cs n b h hok
  obtain ⟨rows', p', d', r1', r2', r3', r4', r5'⟩ := source_spec e' g draw cosmo z seed cs n b hg (by rw [hm]; exact hok')
  rw [s1] at r2
  rw [hm, s2] at r2'
  cases r2
  cases r2'
  have hr : rows.flatten = rows'.flatten := by rw [r3, r3', s3, s4, hf, hE]
  have hs : (rows.map List.length).sum = (rows'.map List.length).sum := by rw [← List.length_flatten, ← List.length_flatten, hr]
  rw [new_eq e g draw cosmo z seed cs n b h, new_eq e' g draw cosmo z seed cs n b hg, r1, r1']
  simp only [Except.bind]
  by_cases h0 : (rows'.map List.length).sum = 0
  · rw [if_pos (hs.trans h0), if_pos h0]
  · rw [if_neg (fun hh => h0 (hs ▸ hh)), if_neg h0]
    simp only [Except.map, hr]

/-- Negation: the cosmology and the redshift that are passed only enter the velocities: the positions are those of the power spectrum, whatever redshift it is for. -/
theorem positions_of_plin (e : Env σ) (g : Args) (draw cosmo cosmo' : Nat) (z z' : ℚ) (seed cs : Nat) (n : Cell) (b : Vec)
    (h : Given e { g with cosmo := some cosmo, redshift := some z } draw cosmo z seed cs n b) :
    (new e { g with cosmo := some cosmo, redshift := some z } draw).map (fun o => o.rows.map fun l => l.map Row.pos) =
    (new e { g with cosmo := some cosmo', redshift := some z' } draw).map (fun o => o.rows.map fun l => l.map Row.pos) := by
  rw [new_eq e _ draw cosmo z seed cs n b h]
  rw [new_eq e { g with cosmo := some cosmo', redshift := some z' } draw cosmo' z' seed cs n b
    ⟨Or.inl rfl, Or.inl rfl, h.hseed, h.hcosmoSeed, h.ranks, h.mesh, h.box⟩]
  have hmm : ∀ (c : Nat) (w : ℚ), mockEnv e { g with cosmo := some c, redshift := some w } (some seed) (some cs) n b = mockEnv e g (some seed) (some cs) n b :=
    fun _ _ => rfl
  have hme : (three g.nmesh).bind meshOf = .ok n := h.mesh
  have hbo : three g.boxSize = .ok b := h.box
  unfold makeSource
  simp only [hme, hbo]
  simp only [hmm, bind, Except.bind]
  cases Mock.sample (mockEnv e g (some seed) (some cs) n b) (e.rav n) (e.own n) with
  | error er => rfl
  | ok q =>
    obtain ⟨pos, disp⟩ := q
    dsimp only
    have hl : ∀ (f E w : ℚ), (List.zipWith (fun p d => List.zipWith (rowOf f E w b) p d) pos disp).map List.length =
        List.zipWith (fun p d => min p.length d.length) pos disp := by
      intro f E w
      rw [List.map_zipWith]
      simp only [List.length_zipWith]
    have hp : ∀ (f E w : ℚ), (List.zipWith (fun p d => List.zipWith (rowOf f E w b) p d) pos disp).map (fun l => l.map Row.pos) =
        List.zipWith (fun p d => List.zipWith (fun x y => wrapVec (add x y) b) p d) pos disp := by
      intro f E w
      rw [List.map_zipWith]
      simp only [List.map_zipWith, rowOf]
    simp only [hl]
    split
    · rfl
    · simp only [Except.map, hp]

end NBK.LogObj
