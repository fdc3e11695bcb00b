import Verif.CosmoObj.NewProps

set_option linter.unusedSimpArgs false

/-! The old signature, `from_astropy`, `from_file`, `from_dict`, `dict`, `clone` and copies of `Cosmology` objects (C119). -/
namespace NBK.CosmoObj

open NBK.Cosmo (Dict Val clean)

/-- What `astropy_to_dict` gives. -/
theorem astropy_dict (a : Cosmo.Astropy) (k : ℚ) (d : Dict) (h : Cosmo.fromAstropy a k = .ok d) :
    0 < a.Ob0 ∧ d "h" = some (.num (a.H0 / 100)) ∧ d "T0_cmb" = some (.num a.Tcmb0) ∧ d "Omega0_b" = some (.num a.Ob0) ∧
    d "Omega0_cdm" = some (.num (a.Om0 - a.Ob0)) ∧ d "m_ncdm" = some (.list (Cosmo.fromMasses a.m_nu)) ∧ d "Omega0_k" = some (.num k) ∧
    (∃ n, d "N_ur" = some (.num n) ∧ (Cosmo.fromMasses a.m_nu = [] → n = a.Neff)) ∧
    (a.de = .lambda → d "w0_fld" = none ∧ d "wa_fld" = none ∧ d "Omega0_Lambda" = none) ∧
    (∀ w, a.de = .w w → d "w0_fld" = some (.num w) ∧ d "wa_fld" = some (.num 0) ∧ d "Omega0_Lambda" = some (.num 0)) ∧
    ∀ x, x ∉ astropyNames a → d x = none := by
  unfold Cosmo.fromAstropy at h
  simp only [bind, Except.bind, throw, throwThe, MonadExceptOf.throw, pure, Except.pure] at h
  by_cases hb : a.Ob0 ≤ 0
  · rw [if_pos hb] at h; cases h
  · rw [if_neg hb] at h
    obtain ⟨nur, hd, hn⟩ : ∃ nur : ℚ, d = Dict.lit ([("h", .num (a.H0 / 100)), ("T0_cmb", .num a.Tcmb0), ("Omega0_b", .num a.Ob0),
        ("Omega0_cdm", .num (a.Om0 - a.Ob0)), ("N_ur", .num nur), ("m_ncdm", .list (Cosmo.fromMasses a.m_nu)), ("Omega0_k", .num k)] ++
        ((Cosmo.fromDE a.de).map fun (w : ℚ × ℚ) => [("w0_fld", Val.num w.1), ("wa_fld", .num w.2), ("Omega0_Lambda", .num 0)]).getD []) ∧
        (Cosmo.fromMasses a.m_nu = [] → nur = a.Neff) := by
      by_cases hm : (Cosmo.fromMasses a.m_nu).length = 0
      · rw [if_pos hm] at h
        simp only [Except.ok.injEq] at h
        exact ⟨a.Neff, h.symm, fun _ => rfl⟩
      · rw [if_neg hm] at h
        cases ht : Cosmo.nurMassive[(Cosmo.fromMasses a.m_nu).length - 1]? with
        | none => rw [ht] at h; cases h
        | some n =>
          rw [ht] at h
          simp only [Except.ok.injEq] at h
          exact ⟨_, h.symm, fun e => absurd (by rw [e]; rfl) hm⟩
    subst hd
    refine ⟨by simpa using hb, rfl, rfl, rfl, rfl, rfl, rfl, ⟨nur, rfl, hn⟩, ?_, ?_, ?_⟩
    · intro hde; rw [hde]; exact ⟨rfl, rfl, rfl⟩
    · intro w hde; rw [hde]; exact ⟨rfl, rfl, rfl⟩
    · intro x hx
      apply lit_none
      unfold astropyNames at hx
      rw [List.mem_append, not_or] at hx
      rw [List.map_append, List.mem_append, not_or]
      refine ⟨by simpa using hx.1, ?_⟩
      cases hde : a.de with
      | lambda => simp [Cosmo.fromDE]
      | w w0 => rw [hde] at hx; simpa [Cosmo.fromDE] using hx.2
      | w0wa w0 wa => rw [hde] at hx; simpa [Cosmo.fromDE] using hx.2

/-- The astropy cosmology of the old names. -/
theorem oldAstropy_spec (d : Dict) (a : Cosmo.Astropy) (h : oldAstropy d = .ok a) :
    number (d "H0") = .ok a.H0 ∧ number (d "Om0") = .ok a.Om0 ∧ number (d "Ob0") = .ok a.Ob0 ∧ number (d "Tcmb0") = .ok a.Tcmb0 ∧ number (d "Neff") = .ok a.Neff ∧
    (∃ w, number (d "w0") = .ok w ∧ a.de = if w = -1 then .lambda else .w w) ∧
    (((d "flat").map Cosmo.truthy).getD false = true → a.ode0 = none) ∧
    (((d "flat").map Cosmo.truthy).getD false = false → ∃ o, number (d "Ode0") = .ok o ∧ a.ode0 = some o) ∧
    oldMasses ⌊a.Neff⌋.toNat (d "m_nu") = .ok a.m_nu := by
  unfold oldAstropy at h
  simp only [bind, Except.bind, throw, throwThe, MonadExceptOf.throw, pure, Except.pure] at h
  cases h1 : number (d "H0") with
  | error e => rw [h1] at h; cases h
  | ok H0 =>
  cases h2 : number (d "Om0") with
  | error e => rw [h1, h2] at h; cases h
  | ok Om0 =>
  cases h3 : number (d "Tcmb0") with
  | error e => rw [h1, h2, h3] at h; cases h
  | ok T =>
  cases h4 : number (d "Neff") with
  | error e => rw [h1, h2, h3, h4] at h; cases h
  | ok N =>
  cases h5 : number (d "w0") with
  | error e => rw [h1, h2, h3, h4, h5] at h; cases h
  | ok w =>
  simp only [h1, h2, h3, h4, h5] at h
  have hob : ∀ o, (if d "Ob0" = some .none then (Except.error Err.valueError : Except Err ℚ) else number (d "Ob0")) = .ok o → number (d "Ob0") = .ok o := by
    intro o ho
    split at ho
    · cases ho
    · exact ho
  cases hb : (if d "Ob0" = some .none then (Except.error Err.valueError : Except Err ℚ) else number (d "Ob0")) with
  | error e => simp only [hb] at h; split at h <;> cases h
  | ok Ob0 =>
  by_cases hcond : Om0 < 0 ∨ N < 0 ∨ Ob0 < 0 ∨ Om0 < Ob0
  · simp only [hb, if_pos hcond] at h; split at h <;> cases h
  cases hm : oldMasses ⌊N⌋.toNat (d "m_nu") with
  | error e => simp only [hb, if_neg hcond, hm] at h; split at h <;> cases h
  | ok m =>
  simp only [hb, if_neg hcond, hm] at h
  by_cases hf : ((d "flat").map Cosmo.truthy).getD false = true
  · rw [if_pos hf] at h
    simp only [Except.ok.injEq] at h
    subst h
    exact ⟨rfl, rfl, hob _ hb, rfl, rfl, ⟨w, rfl, rfl⟩, fun _ => rfl, (fun hh => by rw [hf] at hh; cases hh), hm⟩
  · rw [if_neg hf] at h
    cases ho : number (d "Ode0") with
    | error e => rw [ho] at h; cases h
    | ok o =>
      rw [ho] at h
      simp only [Except.map, Except.ok.injEq] at h
      subst h
      exact ⟨rfl, rfl, hob _ hb, rfl, rfl, ⟨w, rfl, rfl⟩, fun hh => absurd hh hf, fun _ => ⟨o, rfl, rfl⟩, hm⟩

/-- One mass is that of every species; a list must have a mass for each. -/
theorem oldAstropy_masses (d : Dict) (a : Cosmo.Astropy) (h : oldAstropy d = .ok a) (hN : 1 ≤ a.Neff) :
    (∀ q, 0 < q → d "m_nu" = some (.num q) → a.m_nu = some (List.replicate ⌊a.Neff⌋.toNat q)) ∧
    (∀ l, d "m_nu" = some (.list l) → l.length = ⌊a.Neff⌋.toNat ∧ (∀ q ∈ l, 0 ≤ q) ∧ ((∃ q ∈ l, q ≠ 0) → a.m_nu = some l)) := by
  have hm := (oldAstropy_spec d a h).2.2.2.2.2.2.2.2
  have hn : ⌊a.Neff⌋.toNat ≠ 0 := by
    have : (1 : ℤ) ≤ ⌊a.Neff⌋ := Int.le_floor.2 (by exact_mod_cast hN)
    omega
  refine ⟨fun q hq hd => ?_, fun l hd => ?_⟩
  · rw [hd] at hm
    unfold oldMasses at hm
    dsimp only at hm
    rw [if_neg (by exact not_lt.2 hq.le), if_neg (by rintro (h0 | h0); exact hn h0; exact hq.ne' h0)] at hm
    exact (Except.ok.inj hm).symm
  · rw [hd] at hm
    unfold oldMasses at hm
    dsimp only at hm
    rw [if_neg hn] at hm
    split at hm
    · cases hm
    · rename_i hc
      rw [not_or, not_not] at hc
      refine ⟨hc.1, fun q hq => ?_, fun ⟨q, hq, h0⟩ => ?_⟩
      · by_contra hlt
        exact hc.2 (List.any_eq_true.2 ⟨q, hq, by simpa using hlt⟩)
      · rw [if_neg (by rw [List.all_eq_true]; intro hall; exact h0 (by simpa using hall q hq))] at hm
        exact (Except.ok.inj hm).symm

/-- C119, old signature: `Cosmology(H0=, Om0=, Ob0=, …)` has the parameters given, and the old default values for the others;
no curvature if `flat` is set.  Missing from the claim "the defaults are those of the new signature": the maximum wave number
and redshift, the spectral index and the gauge are not set at all, and CLASS uses its own. -/
theorem deprecated_partial (ok0 : Cosmo.Astropy → ℚ) (kw : List (String × Val)) (hne : kw ≠ []) (hold : ∀ q ∈ kw, q.1 ∈ Cosmo.oldNames) (p : Dict)
    (h : compile ok0 [] kw = .ok p) (old : Dict) (hv : ∀ x, old x = (Dict.lit kw x).or (oldDefaults x)) :
    (∀ q, old "H0" = some (.num q) → p "h" = some (.num (q / 100))) ∧
    (∀ q, old "Tcmb0" = some (.num q) → p "T_cmb" = some (.num q)) ∧
    (∀ q, old "Ob0" = some (.num q) → 0 < q ∧ p "Omega_b" = some (.num q) ∧ ∀ m, old "Om0" = some (.num m) → p "Omega_cdm" = some (.num (m - q))) ∧
    (∀ w, old "w0" = some (.num w) → (w = -1 → p "w0_fld" = none ∧ p "Omega_Lambda" = none) ∧
      (w ≠ -1 → p "w0_fld" = some (.num w) ∧ p "wa_fld" = some (.num 0) ∧ p "Omega_Lambda" = some (.num 0))) ∧
    (old "flat" = some (.bool true) → p "Omega_k" = some (.num 0)) ∧
    (old "m_nu" = some (.num 0) ∨ old "m_nu" = some .none → p "N_ncdm" = some (.num 0) ∧ p "m_ncdm" = none ∧ ∀ q, old "Neff" = some (.num q) → p "N_ur" = some (.num q)) ∧
    p "P_k_max_h/Mpc" = none ∧ p "z_max_pk" = none ∧ p "n_s" = none ∧ p "gauge" = none := by
  have hodict : oldDefaults.update (Dict.lit kw) = old := by
    funext x
    rw [hv x]
    unfold Dict.update
    cases Dict.lit kw x <;> simp
  have hpar : ∀ k ∈ params, k ∉ Cosmo.oldNames := by decide
  unfold compile at h
  simp only [bind, Except.bind] at h
  rw [if_neg (by decide), if_neg (by
    rw [List.any_eq_true]; rintro ⟨q, hq, h'⟩; simp at h')] at h
  have hdep : deprecated ok0 [] kw = (match oldAstropy old with
      | .error e => Except.error e
      | .ok a => (match lift (Cosmo.fromAstropy a (curvature ok0 a)) with
        | .error e => Except.error e
        | .ok d => Except.ok (some d))) := by
    unfold deprecated
    rw [if_neg, if_neg, hodict]
    · simp only [bind, Except.bind, pure, Except.pure]
      cases oldAstropy old with
      | error e => rfl
      | ok a => dsimp only; cases lift (Cosmo.fromAstropy a (curvature ok0 a)) <;> rfl
    · rw [not_or]
      refine ⟨?_, by simp⟩
      rw [List.any_eq_true]
      rintro ⟨q, hq, h'⟩
      simp at h'
      exact h' (hold q hq)
    · rw [List.all_eq_true]
      intro hall
      obtain ⟨q, hq⟩ := List.exists_mem_of_ne_nil kw hne
      have := hall q hq
      simp at this
      exact this (hold q hq)
  rw [hdep] at h
  cases ha : oldAstropy old with
  | error e => rw [ha] at h; cases h
  | ok a =>
  rw [ha] at h
  simp only at h
  cases hd : lift (Cosmo.fromAstropy a (curvature ok0 a)) with
  | error e => rw [hd] at h; cases h
  | ok d =>
  rw [hd] at h
  simp only at h
  cases hc : lift (Cosmo.checkArgs (Dict.lit kw)) with
  | error e => rw [hc] at h; cases h
  | ok u =>
  rw [hc] at h
  simp only at h
  have hcomp := (lift_ok _ _).mp h
  obtain ⟨b0, b1, b2, b3, b4, b5, b6, ⟨nur, b7, b8⟩, b9, b10, b11⟩ := astropy_dict a _ d ((lift_ok _ _).mp hd)
  obtain ⟨o1, o2, o3, o4, o5, ⟨w, o6, o7⟩, o8, o9, o10⟩ := oldAstropy_spec old a ha
  have hnotin : ∀ x, x ∉ ["h", "T0_cmb", "Omega0_b", "Omega0_cdm", "N_ur", "m_ncdm", "Omega0_k", "w0_fld", "wa_fld", "Omega0_Lambda"] → d x = none := by
    intro x hx
    apply b11
    unfold astropyNames
    simp only [List.mem_cons, List.not_mem_nil, or_false, not_or] at hx
    rw [List.mem_append, not_or]
    refine ⟨by simp [hx], ?_⟩
    split
    · simp
    · simp [hx]
  have al := Cosmo.compile_alias d p hcomp
  have num_some : ∀ q : ℚ, clean (some (.num q)) = some (Val.num q) := fun q => by simp [clean]
  have hh : p "h" = some (.num (a.H0 / 100)) := by
    rw [Cosmo.compile_other d p hcomp "h" (by decide), Cosmo.start_get _ _ (by decide) (by decide), b1, num_some]
  have hT : p "T_cmb" = some (.num a.Tcmb0) := by
    rw [al ("T_cmb", "T0_cmb") (by simp [Cosmo.simpleAliases]), hnotin _ (by decide), b2]; exact num_some _
  have hB : p "Omega_b" = some (.num a.Ob0) := by
    rw [al ("Omega_b", "Omega0_b") (by simp [Cosmo.simpleAliases]), hnotin _ (by decide), b3]; exact num_some _
  have hC : p "Omega_cdm" = some (.num (a.Om0 - a.Ob0)) := by
    rw [al ("Omega_cdm", "Omega0_cdm") (by simp [Cosmo.simpleAliases]), hnotin _ (by decide), b4]; exact num_some _
  have hK : p "Omega_k" = some (.num (curvature ok0 a)) := by
    rw [al ("Omega_k", "Omega0_k") (by simp [Cosmo.simpleAliases]), hnotin _ (by decide), b6]; exact num_some _
  have hw0 : p "w0_fld" = clean (d "w0_fld") := by
    rw [Cosmo.compile_other d p hcomp "w0_fld" (by decide), Cosmo.start_get _ _ (by decide) (by decide)]
  have hwa : p "wa_fld" = clean (d "wa_fld") := by
    rw [Cosmo.compile_other d p hcomp "wa_fld" (by decide), Cosmo.start_get _ _ (by decide) (by decide)]
  have hl := Cosmo.compile_lambda d p hcomp
  refine ⟨?_, ?_, ?_, ?_, ?_, ?_, ?_, ?_, ?_, ?_⟩
  · intro q hq; rw [hq] at o1; cases o1; exact hh
  · intro q hq; rw [hq] at o4; cases o4; exact hT
  · intro q hq
    rw [hq] at o3
    cases o3
    refine ⟨b0, hB, ?_⟩
    intro m hm
    rw [hm] at o2
    cases o2
    exact hC
  · intro w' hw'
    rw [hw'] at o6
    obtain rfl : w' = w := Except.ok.inj o6
    constructor
    · intro e
      rw [if_pos e] at o7
      obtain ⟨c1, c2, c3⟩ := b9 o7
      rw [hw0, c1]
      refine ⟨rfl, ?_⟩
      rcases hl with ⟨_, _, hl⟩ | ⟨hx, _, _⟩
      · rw [hl, Cosmo.lambdaOf, hnotin _ (by decide), c3, hnotin _ (by decide), hnotin _ (by decide)]; rfl
      · rw [c1, c2] at hx; simp at hx
    · intro e
      rw [if_neg e] at o7
      obtain ⟨c1, c2, c3⟩ := b10 w' o7
      rw [hw0, hwa, c1, c2]
      refine ⟨num_some _, num_some _, ?_⟩
      rcases hl with ⟨hx, _, _⟩ | ⟨_, _, hl⟩
      · rw [c1] at hx; cases hx
      · exact hl
  · intro hf
    rw [hK, curvature, if_pos (o8 (by rw [hf]; rfl))]
  · intro hm
    have hz : Cosmo.fromMasses a.m_nu = [] := by
      have : a.m_nu = none := by
        rcases hm with hm | hm <;> rw [hm] at o10 <;> simp [oldMasses] at o10
        · exact o10.symm
        · exact o10.symm
      rw [this]; rfl
    rcases Cosmo.compile_ncdm d p hcomp with ⟨hx, _⟩ | ⟨v, m, m1, m2, _, m4, m5, _, _, m8⟩
    · rw [b5] at hx; cases hx
    · rw [b5, hz] at m1
      cases m1
      simp only [Cosmo.massList, Except.ok.injEq] at m2
      subst m2
      refine ⟨m5, m4, ?_⟩
      intro q hq
      rw [hq] at o5
      rw [m8 (by rw [b7]; simp), b7, b8 hz]
      cases o5
      rfl
  · rw [al ("P_k_max_h/Mpc", "P_k_max") (by simp [Cosmo.simpleAliases]), hnotin _ (by decide), hnotin _ (by decide)]; rfl
  · rw [al ("z_max_pk", "P_z_max") (by simp [Cosmo.simpleAliases]), hnotin _ (by decide), hnotin _ (by decide)]; rfl
  · rw [Cosmo.compile_other d p hcomp "n_s" (by decide), Cosmo.start_get _ _ (by decide) (by decide), hnotin _ (by decide)]; rfl
  · rw [Cosmo.compile_other d p hcomp "gauge" (by decide), Cosmo.start_get _ _ (by decide) (by decide), hnotin _ (by decide)]; rfl

/-- C119, a call with the old names: `Cosmology(H0=70, flat=True)`. The maximum redshift, 100 otherwise, is not set. -/
theorem deprecated_case (ok0 : Cosmo.Astropy → ℚ) :
    ∃ p, compile ok0 [] [("H0", .num 70), ("flat", .bool true)] = .ok p ∧ p "h" = some (.num (7/10)) ∧ p "Omega_b" = some (.num (486/10000)) ∧
      p "Omega_k" = some (.num 0) ∧ p "z_max_pk" = none ∧ (∃ q, compile ok0 [] [("h", .num (7/10))] = .ok q ∧ q "z_max_pk" = some (.num 100)) := by
  have e : ∀ f : Cosmo.Astropy → ℚ, compile f [] [("H0", .num 70), ("flat", .bool true)] = compile (fun _ => 0) [] [("H0", .num 70), ("flat", .bool true)] := by
    intro f
    have : ∀ a, oldAstropy (oldDefaults.update (Dict.lit [("H0", .num 70), ("flat", .bool true)])) = .ok a → a.ode0 = none := by
      intro a ha
      exact (oldAstropy_spec _ a ha).2.2.2.2.2.2.1 (by decide)
    unfold compile
    have hdep : deprecated f [] [("H0", .num 70), ("flat", .bool true)] = deprecated (fun _ => 0) [] [("H0", .num 70), ("flat", .bool true)] := by
      unfold deprecated
      split
      · rfl
      · split
        · rfl
        · cases ha : oldAstropy (oldDefaults.update (Dict.lit [("H0", .num 70), ("flat", .bool true)])) with
          | error e => rfl
          | ok a =>
            simp only [bind, Except.bind, curvature, this a ha, if_true]
    rw [hdep]
  rw [e ok0]
  refine ⟨okD (compile (fun _ => 0) [] [("H0", .num 70), ("flat", .bool true)]), run_ok ?_, ?_, ?_, ?_, ?_, ?_⟩
  case refine_6 =>
    rw [compile_keywords ok0 _ (by intro q hq; simp at hq; subst hq; decide)]
    exact ⟨_, run_ok (by decide +kernel), by decide +kernel⟩
  all_goals decide +kernel

/-! ## Dictionaries, copies and changed dictionaries -/

/-- The engine of the object and its dictionary have the same parameters. -/
def Consistent {α : Type} (L : Lib α) (h : Heap) (c : Obj α) (p : Dict) : Prop := Sound L c p ∧ ∃ r, parsOf c = .ok r ∧ h.get r = p

/-- C119: `Cosmology.from_dict(dict(c))`, a pickled copy, and `copy.copy(c)` have the parameters of `c`, with an engine made of them; the arguments of the
constructor and other attributes set on `c` are lost. -/
theorem round_trips {α : Type} (L : Lib α) (h : Heap) (c : Obj α) (p : Dict) (hc : Consistent L h c p) (hL : ∀ i, ∀ k ∈ reserved, L.has i k = false)
    (hm : L.make .engine p = .ok ()) :
    (∃ r h' c', asDict h c = .ok (r, h') ∧ fromDict L h' r = .ok c' ∧ Consistent L h' c' p ∧ (∀ n ∉ reserved, c'.inst n = none) ∧ c'.inst "_user_kwargs" = none ∧
      ∀ r', r' ≠ r → h'.get r' = h.get r') ∧
    (∃ c' h', pickled L h c = .ok (c', h') ∧ Consistent L h' c' p ∧ (∀ n ∉ reserved, c'.inst n = none) ∧ c'.inst "_user_kwargs" = none) ∧
    (∃ c', shallow L h c = .ok c' ∧ Consistent L h c' p ∧ parsOf c' = parsOf c ∧ (∀ n ∉ reserved, c'.inst n = none) ∧ c'.inst "_user_kwargs" = none) := by
  obtain ⟨hs, r, hr, hg⟩ := hc
  have fresh : ∀ (h : Heap) (r : Nat), h.get r = p → ∃ c', setState L h (bare (α := α)) r = .ok c' ∧ Consistent L h c' p ∧ parsOf c' = .ok r ∧
      (∀ n ∉ reserved, c'.inst n = none) ∧ c'.inst "_user_kwargs" = none := by
    intro h r hg
    obtain ⟨c', hc'⟩ := setState_total L h bare r hL (by rw [hg]; exact hm)
    obtain ⟨s1, s2, _, _, s4⟩ := setState_spec L h _ _ _ hc'
    rw [hg] at s1
    refine ⟨c', hc', ⟨s1, r, s2, hg⟩, s2, ?_, s4 _ (by decide) (by decide) (by decide)⟩
    intro n hn
    simp only [reserved, List.mem_cons, List.not_mem_nil, or_false, not_or] at hn
    exact s4 n hn.2.2.1 hn.2.2.2.1 hn.2.2.2.2
  have ha : (h.alloc (h.get r)).2.get (h.alloc (h.get r)).1 = p := by simp [Heap.alloc, hg]
  refine ⟨?_, ?_, ?_⟩
  · obtain ⟨c', g1, g2, _, g4, g5⟩ := fresh _ _ ha
    refine ⟨(h.alloc (h.get r)).1, (h.alloc (h.get r)).2, c', ?_, g1, g2, g4, g5, ?_⟩
    · unfold asDict; rw [hr]; rfl
    · intro r' hr'
      exact if_neg hr'
  · obtain ⟨c', g1, g2, _, g4, g5⟩ := fresh _ _ ha
    refine ⟨c', (h.alloc (h.get r)).2, ?_, g2, g4, g5⟩
    unfold pickled
    simp only [bind, Except.bind, hr, g1]
    rfl
  · obtain ⟨c', g1, g2, g3, g4, g5⟩ := fresh h r hg
    refine ⟨c', ?_, g2, ?_, g4, g5⟩
    · unfold shallow; simp only [bind, Except.bind, hr, g1]
    · rw [g3, hr]

/-- C119: a new object, a clone and an object from a file have dictionaries of their own; writing into any other dictionary leaves
them consistent.  A clone leaves the dictionary of the original as it is and has the parameters of `Verif.Cosmo.clone` (C65); a file gives
the parameters in it, replaced by the keywords, without translation of names. -/
theorem own_dict {α : Type} (L : Lib α) (h h' : Heap) (c' : Obj α) (kw : Dict) :
    (∀ c p, Consistent L h c p → clone L h c kw = .ok (c', h') → ∃ p', Cosmo.clone p kw = .ok p' ∧ Consistent L h' c' p' ∧ parsOf c' = .ok h.next ∧
      (∀ r, r ≠ h.next → h'.get r = h.get r) ∧ ∀ r k v, r ≠ h.next → Consistent L (h'.write r k v) c' p') ∧
    (∀ ini, fromFile L h ini kw = .ok (c', h') → ∃ p', (∀ x, p' x = (kw x).or (ini x)) ∧ Consistent L h' c' p' ∧ parsOf c' = .ok h.next ∧
      ∀ r k v, r ≠ h.next → Consistent L (h'.write r k v) c' p') ∧
    (∀ ok0 args kws, new L ok0 h args kws = .ok (c', h') → ∃ p', compile ok0 args kws = .ok p' ∧ Consistent L h' c' p' ∧
      ∀ r k v, r ≠ h.next → Consistent L (h'.write r k v) c' p') := by
  have wr : ∀ (h' : Heap) (c' : Obj α) (p' : Dict) (r0 : Nat), Sound L c' p' → parsOf c' = .ok r0 → h'.get r0 = p' →
      ∀ r k v, r ≠ r0 → Consistent L (h'.write r k v) c' p' := by
    intro h' c' p' r0 hs hp hg r k v hr
    refine ⟨hs, r0, hp, ?_⟩
    show (if r0 = r then _ else _) = _
    rw [if_neg (Ne.symm hr)]
    exact hg
  refine ⟨?_, ?_, ?_⟩
  · rintro c p ⟨_, r, hr, hg⟩ hcl
    unfold clone at hcl
    simp only [bind, Except.bind, hr, hg] at hcl
    cases hp : lift (Cosmo.clone p kw) with
    | error e => rw [hp] at hcl; cases hcl
    | ok p' =>
      rw [hp] at hcl
      simp only at hcl
      cases hs : fromDict L (h.alloc p').2 (h.alloc p').1 with
      | error e => rw [hs] at hcl; cases hcl
      | ok c1 =>
        rw [hs] at hcl
        simp only [pure, Except.pure, Except.ok.injEq, Prod.mk.injEq] at hcl
        obtain ⟨rfl, rfl⟩ := hcl
        obtain ⟨s1, s2, _, _, _⟩ := setState_spec L _ _ _ _ hs
        have hga : (h.alloc p').2.get (h.alloc p').1 = p' := by simp [Heap.alloc]
        rw [hga] at s1
        refine ⟨p', (lift_ok _ _).mp hp, ⟨s1, _, s2, hga⟩, s2, ?_, wr _ _ _ _ s1 s2 hga⟩
        intro r' hr'
        show (if r' = h.next then _ else _) = _
        rw [if_neg hr']
  · intro ini hf
    unfold fromFile at hf
    simp only [bind, Except.bind] at hf
    cases hs : fromDict L (h.alloc (ini.update kw)).2 (h.alloc (ini.update kw)).1 with
    | error e => rw [hs] at hf; cases hf
    | ok c1 =>
      rw [hs] at hf
      simp only [pure, Except.pure, Except.ok.injEq, Prod.mk.injEq] at hf
      obtain ⟨rfl, rfl⟩ := hf
      obtain ⟨s1, s2, _, _, _⟩ := setState_spec L _ _ _ _ hs
      have hga : (h.alloc (ini.update kw)).2.get (h.alloc (ini.update kw)).1 = ini.update kw := by simp [Heap.alloc]
      rw [hga] at s1
      refine ⟨ini.update kw, ?_, ⟨s1, _, s2, hga⟩, s2, wr _ _ _ _ s1 s2 hga⟩
      intro x
      unfold Dict.update
      cases kw x <;> simp
  · intro ok0 args kws hn
    obtain ⟨p, g1, g2, g3, g4, _⟩ := (new_spec L ok0 h args kws).1 c' h' hn
    exact ⟨p, g1, ⟨g2, _, g3, g4⟩, wr _ _ _ _ g2 g3 g4⟩

/-- C119, against "the object is immutable": `from_dict` keeps the dictionary of the caller.  After the caller writes into it, `dict(c)` and `clone` have the new value and the
attributes still the old one; the same holds for `copy.copy(c)` and the dictionary of `c`. -/
theorem from_dict_alias {α : Type} (L : Lib α) (h : Heap) (r : Nat) (c : Obj α) (hc : fromDict L h r = .ok c) (k : String) (v : Val) (hv : h.get r k ≠ some v) :
    parsOf c = .ok r ∧ Sound L c (h.get r) ∧ ((h.write r k v).get r) k = some v ∧ ¬ Consistent L (h.write r k v) c (h.get r) := by
  obtain ⟨s1, s2, _⟩ := setState_spec L h _ _ _ hc
  have e : ((h.write r k v).get r) k = some v := by simp [Heap.write, Dict.set]
  refine ⟨s2, s1, e, ?_⟩
  rintro ⟨_, r', hr', hg⟩
  rw [s2] at hr'
  cases hr'
  rw [hg] at e
  exact hv e

/-! ## `from_astropy` -/

/-- The keyword arguments are those of the astropy cosmology, replaced by the given ones. -/
theorem merged_lit (a : Cosmo.Astropy) (k : ℚ) (d : Dict) (h : Cosmo.fromAstropy a k = .ok d) (kw : List (String × Val)) :
    Dict.lit (merged a d kw) = d.update (Dict.lit kw) := by
  obtain ⟨_, _, _, _, _, _, _, _, _, _, b11⟩ := astropy_dict a k d h
  funext x
  unfold merged
  rw [lit_append]
  have first : ∀ (l : List String), Dict.lit (l.filterMap fun k => (d.update (Dict.lit kw) k).map fun v => (k, v)) x =
      if x ∈ l then d.update (Dict.lit kw) x else none := by
    intro l
    induction l with
    | nil => rfl
    | cons y l ih =>
      rw [List.filterMap_cons]
      by_cases hxy : x = y
      · subst hxy
        rw [if_pos List.mem_cons_self]
        cases hv : d.update (Dict.lit kw) x with
        | none =>
          simp only [Option.map_none]
          rw [ih]
          split <;> simp [hv]
        | some v => simp [Dict.lit, List.lookup_cons]
      · have hb : (x == y) = false := by simpa using hxy
        cases hv : d.update (Dict.lit kw) y with
        | none => simp only [Option.map_none]; rw [ih]; simp [hxy]
        | some v =>
          simp only [Option.map_some]
          unfold Dict.lit at ih ⊢
          rw [List.lookup_cons, hb]
          simp only [List.mem_cons, hxy, false_or]
          exact ih
  have second : ∀ (l : List (String × Val)), Dict.lit (l.filter fun q => q.1 ∉ astropyNames a) x = if x ∈ astropyNames a then none else Dict.lit l x := by
    intro l
    induction l with
    | nil => simp [Dict.lit]
    | cons q l ih =>
      rw [List.filter_cons]
      by_cases hq : q.1 ∈ astropyNames a
      · simp only [hq, not_true, decide_false, Bool.false_eq_true, if_false]
        rw [ih]
        by_cases hx : x ∈ astropyNames a
        · rw [if_pos hx, if_pos hx]
        · rw [if_neg hx, if_neg hx]
          have : (x == q.1) = false := by
            rw [beq_eq_false_iff_ne]; rintro rfl; exact hx hq
          unfold Dict.lit
          rw [List.lookup_cons, this]
      · simp only [hq, not_false_eq_true, decide_true, if_true]
        unfold Dict.lit at ih ⊢
        rw [List.lookup_cons, List.lookup_cons]
        by_cases hx : x = q.1
        · have : (x == q.1) = true := by simpa using hx
          rw [this]
          subst hx
          simp [hq]
        · have : (x == q.1) = false := by simpa using hx
          rw [this]
          exact ih
  rw [first, second]
  by_cases hx : x ∈ astropyNames a
  · rw [if_pos hx, if_pos hx, Option.or_none]
  · rw [if_neg hx, if_neg hx, Option.none_or]
    unfold Dict.update
    rw [b11 x hx]
    cases Dict.lit kw x <;> simp

theorem astropy_modern (a : Cosmo.Astropy) (d : Dict) (kw : List (String × Val)) (h : Modern kw) : Modern (merged a d kw) := by
  intro q hq
  unfold merged at hq
  rcases List.mem_append.mp hq with hq | hq
  · obtain ⟨k, hk, e⟩ := List.mem_filterMap.mp hq
    have hk' : k ∈ ["h", "T0_cmb", "Omega0_b", "Omega0_cdm", "N_ur", "m_ncdm", "Omega0_k", "w0_fld", "wa_fld", "Omega0_Lambda"] := by
      unfold astropyNames at hk
      split at hk <;> simp at hk ⊢ <;> tauto
    obtain ⟨v, _, rfl⟩ := Option.map_eq_some_iff.mp e
    revert hk'
    generalize k = z
    intro hz
    have : ∀ z ∈ ["h", "T0_cmb", "Omega0_b", "Omega0_cdm", "N_ur", "m_ncdm", "Omega0_k", "w0_fld", "wa_fld", "Omega0_Lambda"], z ∉ Cosmo.oldNames := by decide
    exact this z hz
  · exact h q (List.mem_filter.mp hq).1

/-- C119, `from_astropy`: the parameters are those of the constructor called with the values of the astropy cosmology and the keywords; a keyword
of the same name replaces the value of the astropy cosmology without an error. -/
theorem from_astropy_spec {α : Type} (L : Lib α) (ok0 : Cosmo.Astropy → ℚ) (h h' : Heap) (a : Cosmo.Astropy) (kw : List (String × Val)) (hk : Modern kw) (c : Obj α)
    (hn : fromAstropy L ok0 h a kw = .ok (c, h')) :
    ∃ d p, Cosmo.fromAstropy a (curvature ok0 a) = .ok d ∧ Cosmo.init (d.update (Dict.lit kw)) = .ok p ∧ Consistent L h' c p ∧
      ∀ v, v ≠ .none → Dict.lit kw "h" = some v → p "h" = some v := by
  unfold fromAstropy at hn
  simp only [bind, Except.bind] at hn
  cases hd : lift (Cosmo.fromAstropy a (curvature ok0 a)) with
  | error e => rw [hd] at hn; cases hn
  | ok d =>
    rw [hd] at hn
    simp only at hn
    have hd' := (lift_ok _ _).mp hd
    obtain ⟨p, g1, g2, g3, g4, _⟩ := (new_spec L ok0 h [] (merged a d kw)).1 c h' hn
    rw [compile_keywords ok0 _ (astropy_modern a d kw hk), merged_lit a _ d hd' kw] at g1
    have g1' := (lift_ok _ _).mp g1
    refine ⟨d, p, hd', g1', ⟨g2, _, g3, g4⟩, ?_⟩
    intro v hv hh
    obtain ⟨_, hp, _⟩ := Cosmo.init_steps _ _ g1'
    rw [Cosmo.compile_other _ _ hp "h" (by decide), Cosmo.start_get _ _ (by decide) (by decide)]
    unfold Dict.update
    rw [hh]
    simp [clean, hv]

/-- C119, `from_astropy`: a keyword that is another name of a parameter of the astropy cosmology is a conflict. -/
theorem from_astropy_conflict {α : Type} (L : Lib α) (ok0 : Cosmo.Astropy → ℚ) (h : Heap) (a : Cosmo.Astropy) (d : Dict) (kw : List (String × Val)) (hk : Modern kw)
    (hL : ∀ i, ∀ k ∈ reserved, L.has i k = false) (hd : Cosmo.fromAstropy a (curvature ok0 a) = .ok d) (x y : String) (hx : (d x).isSome) (hy : (Dict.lit kw y).isSome) (hne : y ≠ x)
    (hxy : ∃ c ∈ Cosmo.conflicts, x ∈ c ∧ y ∈ c) :
    fromAstropy L ok0 h a kw = .error .valueError := by
  unfold fromAstropy
  simp only [bind, Except.bind, (lift_ok _ _).mpr hd]
  have hmod := astropy_modern a d kw hk
  have hi : Cosmo.init (Dict.lit (merged a d kw)) = .error .valueError := by
    refine Cosmo.conflict_raises _ x y ?_ ?_ hne hxy ?_
    · rw [merged_lit a _ d hd kw]
      unfold Dict.update
      split
      · assumption
      · exact hx
    · rw [merged_lit a _ d hd kw]
      unfold Dict.update
      rw [if_pos hy]; exact hy
    · intro z hz
      apply lit_none
      intro hm
      obtain ⟨q, hq, rfl⟩ := List.mem_map.mp hm
      exact hmod q hq hz
  unfold new
  simp only [bind, Except.bind]
  rw [setattr_free L _ _ _ (fun i => hL i _ (by decide)) (by decide)]
  simp only
  rw [setattr_free L _ _ _ (fun i => hL i _ (by decide)) (by decide)]
  simp only
  rw [compile_keywords ok0 _ hmod, hi]
  rfl

/-- C119, old defaults: with one keyword `H0` the others are `Om0 = 0.31`, `Ob0 = 0.0486`, `Tcmb0 = 2.7255`, `Neff = 3.04`, a cosmological constant and no massive species. -/
theorem deprecated_defaults (ok0 : Cosmo.Astropy → ℚ) (q : ℚ) (p : Dict) (h : compile ok0 [] [("H0", .num q)] = .ok p) :
    p "h" = some (.num (q / 100)) ∧ p "T_cmb" = some (.num (27255 / 10000)) ∧ p "Omega_b" = some (.num (486 / 10000)) ∧ p "Omega_cdm" = some (.num (31 / 100 - 486 / 10000)) ∧
    p "w0_fld" = none ∧ p "N_ncdm" = some (.num 0) ∧ p "N_ur" = some (.num (304 / 100)) := by
  obtain ⟨h1, h2, h3, h4, _, h6, _⟩ := deprecated_partial ok0 [("H0", .num q)] (by simp) (by simp [Cosmo.oldNames]) p h
    (fun x => (Dict.lit [("H0", .num q)] x).or (oldDefaults x)) (fun _ => rfl)
  have e3 := h3 (486 / 10000) rfl
  have e6 := h6 (Or.inl rfl)
  exact ⟨h1 q rfl, h2 _ rfl, e3.2.1, e3.2.2 _ rfl, ((h4 (-1) rfl).1 rfl).1, e6.1, e6.2.2 _ rfl⟩

/-- C119: the old parameters are numbers; a bool counts as one or zero. -/
theorem number_iff (v : Option Val) (q : ℚ) : number v = .ok q ↔ v = some (.num q) ∨ (v = some (.bool true) ∧ q = 1) ∨ (v = some (.bool false) ∧ q = 0) := by
  rcases v with _ | v
  · simp [number]
  · cases v with
    | bool b => cases b <;> simp [number, eq_comm]
    | _ => simp [number]

end NBK.CosmoObj
