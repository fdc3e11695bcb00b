import Verif.CosmoObj.StateProps

set_option linter.unusedSimpArgs false

/-! Concrete `Cosmology` objects (C119), and what the object allows although it is called immutable. -/
namespace NBK.CosmoObj

open NBK.Cosmo (Dict Val)

/-- A parameter as a number. -/
def numOf : Option Val → ℚ
  | some (.num q) => q
  | _ => 0

/-- A small library: `h` in the background and in the engine, the densities in the background, `sigma8` in the spectra; the thermodynamics cannot be made. -/
def exLib : Lib ℚ where
  has i n := match i with
    | .background => n ∈ ["h", "Omega0_cdm", "Omega0_b"]
    | .spectra => n = "sigma8"
    | .thermo => n = "tau_reio"
    | .engine => n ∈ ["h", "compute"]
    | _ => false
  names i := match i with
    | .background => ["h", "Omega0_cdm", "Omega0_b"]
    | .spectra => ["sigma8"]
    | .thermo => ["tau_reio"]
    | .engine => ["h", "compute"]
    | _ => []
  make i _ := if i = .thermo then .error .classError else .ok ()
  attr i p n :=
    if i = .engine then .ok 1
    else if n = "h" then .ok (numOf (p "h"))
    else if n = "Omega0_cdm" then .ok (numOf (p "Omega_cdm"))
    else if n = "Omega0_b" then .ok (numOf (p "Omega_b"))
    else if n = "sigma8" then .ok (8/10) else .error .attributeError
  plus := (· + ·)

theorem ex_reserved : ∀ i, ∀ k ∈ reserved, exLib.has i k = false := by
  intro i
  cases i <;> decide

/-- No dictionaries yet. -/
def exHeap : Heap := ⟨0, fun _ => .empty⟩

/-- C119, an object: `Cosmology(h=0.7, Omega0_b=0.05, Omega0_cdm=0.25)`. The name `h` is found in the background before the engine; `sigma8` and `Omega0_cb` are those of
the delegates; the thermodynamics fail each time; `clone` is not listed by `dir`; assigning to `h` is refused. -/
theorem object_case (ok0 : Cosmo.Astropy → ℚ) : ∃ c h' p,
    new exLib ok0 exHeap [] [("h", .num (7/10)), ("Omega0_b", .num (5/100)), ("Omega0_cdm", .num (25/100))] = .ok (c, h') ∧ Consistent exLib h' c p ∧
    (getattr exLib c "h").1 = .ok (.attr (7/10)) ∧ (getattr exLib c "Omega0_cb").1 = .ok (.attr (25/100 + 5/100)) ∧ (getattr exLib c "sigma8").1 = .ok (.attr (8/10)) ∧
    (getattr exLib c "tau_reio").1 = .error .classError ∧ (getattr exLib c "nothing").1 = .error .attributeError ∧
    (getattr exLib c "Spectra").1 = .ok (.delegate .spectra p) ∧ (getattr exLib c "clone").1 = .ok (.own "clone") ∧
    setattr exLib c "h" (.any 1) = .error .valueError ∧ setattr exLib c "Omega0_cb" (.any 1) = .error .attributeError ∧
    "h" ∈ dirOf exLib ∧ "Spectra" ∈ dirOf exLib ∧ "clone" ∉ dirOf exLib ∧
    (∃ c1, setattr exLib c "Background" (.any 1) = .ok c1 ∧ (getattr exLib c1 "h").1 = .ok (.attr (7/10)) ∧ (getattr exLib c1 "Omega0_cb").1 = .error .attributeError) ∧
    (∃ c2, setattr exLib c "pars" (.dict 5) = .ok c2 ∧ parsOf c2 = .ok 5 ∧ (getattr exLib c2 "h").1 = .ok (.attr (7/10)) ∧ ¬ Consistent exLib h' c2 p) := by
  have hmod : Modern [("h", .num (7/10)), ("Omega0_b", .num (5/100)), ("Omega0_cdm", .num (25/100))] := by
    intro q hq; simp at hq; rcases hq with rfl | rfl | rfl <;> decide
  obtain ⟨p, hp, v1, v2, v3⟩ : ∃ p, compile ok0 [] [("h", .num (7/10)), ("Omega0_b", .num (5/100)), ("Omega0_cdm", .num (25/100))] = .ok p ∧
      p "h" = some (.num (7/10)) ∧ p "Omega_b" = some (.num (5/100)) ∧ p "Omega_cdm" = some (.num (25/100)) := by
    rw [compile_keywords ok0 _ hmod]
    exact ⟨_, run_ok (by decide +kernel), by decide +kernel, by decide +kernel, by decide +kernel⟩
  obtain ⟨c, h', hn⟩ := (new_spec exLib ok0 exHeap [] _).2 p ex_reserved hp rfl
  obtain ⟨p', g1, g2, g3, g4, _, _, _, g8⟩ := (new_spec exLib ok0 exHeap [] _).1 c h' hn
  obtain rfl : p = p' := Except.ok.inj (hp.symm.trans g1)
  have hspec := fun n h1 h2 h3 => getattr_spec exLib c p g2 n h1 h2 h3
  have hprop := property_spec exLib c p g2
  have hs := fun k v => setattr_spec exLib c k v
  have hdir := dir_spec exLib
  have hkeep : ∀ k v c', setattr exLib c k v = .ok c' → k ≠ "engine" → k ≠ "delegates" → Sound exLib c' p ∧ ∀ n, n ≠ k → c'.inst n = c.inst n := by
    intro k v c' h k1 k2
    have e := setattr_put exLib _ _ _ _ h
    subst e
    have hi : ∀ x, x ≠ k → (c.put k v).inst x = c.inst x := fun x hx => by simp [Obj.put, hx]
    obtain ⟨he, l, hl, hr⟩ := g2
    exact ⟨⟨by rw [hi _ (Ne.symm k1)]; exact he, l, by rw [hi _ (Ne.symm k2)]; exact hl, hr⟩, hi⟩
  have hval : ∀ c' : Obj ℚ, Sound exLib c' p → c'.inst "h" = none → (getattr exLib c' "h").1 = .ok (.attr (7/10)) := by
    intro c' hc' h0
    rw [(getattr_spec exLib c' p hc' "h" (by decide) (by decide) h0).2.1 (by decide) [.astropy, .thermo, .spectra, .perturbs, .primordial] .background [.engine] rfl
      (by intro j hj; simp at hj; rcases hj with rfl | rfl | rfl | rfl | rfl <;> rfl) (by decide)]
    show Except.ok (Got.attr (numOf (p "h"))) = _
    rw [v1]; rfl
  refine ⟨c, h', p, hn, ⟨g2, _, g3, g4⟩, hval c g2 (g8 _ (by decide)), ?_, ?_, ?_, ?_, ?_, ?_, ?_, ?_, ?_, ?_, ?_, ?_, ?_⟩
  · rw [hprop.2 (25/100) (5/100) (g8 _ (by decide)) rfl (by show Except.ok (numOf (p "Omega_cdm")) = _; rw [v3]; rfl) (by show Except.ok (numOf (p "Omega_b")) = _; rw [v2]; rfl)]
    rfl
  · exact hprop.1 (8/10) (g8 _ (by decide)) rfl rfl
  · rw [(hspec "tau_reio" (by decide) (by decide) (g8 _ (by decide))).2.1 (by decide) [.astropy] .thermo [.spectra, .perturbs, .primordial, .background, .engine] rfl
      (by intro j hj; simp at hj; subst hj; rfl) (by decide)]
    rfl
  · exact (hspec "nothing" (by decide) (by decide) (g8 _ (by decide))).2.2 (by decide) (by intro i; cases i <;> decide)
  · rw [(hspec "Spectra" (by decide) (by decide) (g8 _ (by decide))).1 .spectra rfl]
    rfl
  · unfold getattr
    rw [if_neg (by decide), g8 _ (by decide)]
    rfl
  · exact (hs "h" _).1 ⟨.background, by decide⟩
  · exact (hs "Omega0_cb" _).2.1 (by intro i; cases i <;> decide) (by decide)
  · exact (hdir.2 _).mpr (.inr ⟨.background, by decide⟩)
  · exact (hdir.2 _).mpr (.inl (by decide))
  · intro h
    rcases (hdir.2 _).mp h with h | ⟨i, h⟩
    · revert h; decide
    · cases i <;> (revert h; decide)
  · obtain ⟨c1, k1, _, k3⟩ := (hs "Background" (.any 1)).2.2 (by intro i; cases i <;> decide) (by decide)
    obtain ⟨s1, s2⟩ := hkeep _ _ _ k1 (by decide) (by decide)
    refine ⟨c1, k1, hval c1 s1 (by rw [s2 _ (by decide)]; exact g8 _ (by decide)), ?_⟩
    have e := setattr_put exLib _ _ _ _ k1
    have hb : c1.inst "Background" = some (.any 1) := by rw [e]; simp [Obj.put]
    unfold getattr
    rw [if_pos (by decide)]
    unfold property
    rw [if_neg (by decide)]
    unfold through
    rw [show (Iface.background).name = "Background" from rfl, hb]
    rfl
  · obtain ⟨c2, k1, _, k3⟩ := (hs "pars" (.dict 5)).2.2 (by intro i; cases i <;> decide) (by decide)
    obtain ⟨s1, s2⟩ := hkeep _ _ _ k1 (by decide) (by decide)
    have e := setattr_put exLib _ _ _ _ k1
    have hb : parsOf c2 = .ok 5 := by rw [e]; simp [Obj.put, parsOf]
    refine ⟨c2, k1, hb, hval c2 s1 (by rw [s2 _ (by decide)]; exact g8 _ (by decide)), ?_⟩
    rintro ⟨_, r, hr, hg⟩
    rw [hb] at hr
    cases hr
    have : h'.get 5 = exHeap.get 5 := by
      obtain ⟨_, _, _, _, _, g6, _⟩ := (new_spec exLib ok0 exHeap [] _).1 c h' hn
      exact g6 5 (by decide)
    rw [this] at hg
    rw [← hg] at v1
    cases v1

/-- C119, a dictionary of the caller: `d = {'h': 0.7}; c = Cosmology.from_dict(d); d['h'] = 0.5`. `c.h` is 0.7 and `dict(c)['h']` is 0.5. -/
theorem alias_case : ∃ (c : Obj ℚ) (h : Heap), fromDict exLib h 0 = .ok c ∧ (getattr exLib c "h").1 = .ok (.attr (7/10)) ∧
    ∃ r h', asDict (h.write 0 "h" (.num (1/2))) c = .ok (r, h') ∧ h'.get r "h" = some (.num (1/2)) := by
  obtain ⟨h, hh⟩ : ∃ h : Heap, h = ⟨1, fun _ => Dict.lit [("h", .num (7/10))]⟩ := ⟨_, rfl⟩
  obtain ⟨c, hc⟩ := setState_total exLib h bare 0 ex_reserved rfl
  obtain ⟨s1, s2, _, _, s4⟩ := setState_spec exLib h _ _ _ hc
  refine ⟨c, h, hc, ?_, (h.write 0 "h" (.num (1/2))).next, ((h.write 0 "h" (.num (1/2))).alloc ((h.write 0 "h" (.num (1/2))).get 0)).2, ?_, ?_⟩
  · rw [(getattr_spec exLib c _ s1 "h" (by decide) (by decide) (s4 _ (by decide) (by decide) (by decide))).2.1 (by decide) [.astropy, .thermo, .spectra, .perturbs, .primordial]
      .background [.engine] rfl (by intro j hj; simp at hj; rcases hj with rfl | rfl | rfl | rfl | rfl <;> rfl) (by decide)]
    rw [hh]
    rfl
  · unfold asDict; rw [s2]; rfl
  · rw [hh]; rfl

/-- C119: an astropy cosmology with a keyword of the same name: `Cosmology.from_astropy(Planck, h=0.5)` has `h=0.5`. -/
theorem from_astropy_case : ∃ p, Cosmo.fromAstropy ⟨70, 3/10, 5/100, 2, 3, none, none, .lambda⟩ 0 = .ok p ∧
    ∃ q, Cosmo.init (p.update (Dict.lit [("h", .num (1/2))])) = .ok q ∧ q "h" = some (.num (1/2)) ∧ q "Omega_b" = some (.num (5/100)) := by
  refine ⟨_, Cosmo.run_ok ?_, _, Cosmo.run_ok ?_, ?_, ?_⟩ <;> decide +kernel

end NBK.CosmoObj
