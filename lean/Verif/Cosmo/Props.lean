import Verif.Cosmo.Lemmas
import Mathlib.Tactic.FieldSimp
import Mathlib.Tactic.Linarith
import Mathlib.Data.Rat.Sqrt

set_option linter.unusedSimpArgs false

/-!
# Parameters of a cosmology (C64-C67)
-/
namespace NBK.Cosmo

/-- The name under which CLASS knows a parameter (written out, independently of `aliases`). -/
def canon (x : String) : String :=
  if x = "T0_cmb" then "T_cmb" else if x = "Omega0_cdm" then "Omega_cdm" else if x = "Omega0_b" then "Omega_b"
  else if x = "Omega0_k" then "Omega_k" else if x = "Omega0_ur" then "Omega_ur"
  else if x = "Omega0_fld" then "Omega_fld" else if x = "Omega0_ncdm" then "Omega_ncdm"
  else if x = "Omega0_g" then "Omega_g" else if x = "P_k_max" then "P_k_max_h/Mpc"
  else if x = "P_z_max" then "z_max_pk" else x

/-- The names of the cosmological constant. -/
def lambdaNames : List String := ["Omega_Lambda", "Omega0_Lambda", "Omega0_lambda", "Omega_lambda"]

/-- The names whose values are not just handed on: flags, neutrinos and the cosmological constant. -/
def special : List String :=
  ["verbose", "m_ncdm", "N_ncdm", "nonlinear", "non linear"] ++ lambdaNames

theorem checkArgs_ok (args : Dict) (h : checkArgs args = .ok ()) (x y : String) (hx : (args x).isSome)
    (hxy : y ∈ findEqcls x) (hne : y ≠ x) : args y = none := by
  unfold checkArgs at h
  split at h
  · cases h
  · rename_i hn
    simp only [List.any_eq_true, Bool.and_eq_true, not_exists, not_and, Dict.has, decide_eq_true_eq] at hn
    have hmem : x ∈ conflictNames := by
      unfold findEqcls at hxy
      cases hf : conflicts.find? fun c => c.contains x with
      | none => rw [hf] at hxy; simp at hxy
      | some c =>
        have h1 := List.find?_some hf
        have h2 := List.mem_of_find?_eq_some hf
        exact List.mem_flatten.mpr ⟨c, h2, by simpa using h1⟩
    have := hn x hmem hx y hxy hne
    simpa using this

theorem init_steps (kw pars : Dict) (h : init kw = .ok pars) :
    checkArgs kw = .ok () ∧ compileArgs (defaults.update kw) = .ok pars ∧ ∀ x ∈ oldNames, kw x = none := by
  unfold init at h
  simp only [bind, Except.bind, throw, throwThe, MonadExceptOf.throw] at h
  by_cases ho : oldNames.any kw.has = true
  · rw [if_pos ho] at h; cases h
  · rw [if_neg ho] at h
    cases hc : checkArgs kw with
    | error e => rw [hc] at h; cases h
    | ok u =>
      rw [hc] at h
      refine ⟨rfl, h, fun x hx => ?_⟩
      simp only [List.any_eq_true, not_exists, not_and, Dict.has] at ho
      simpa using ho x hx

theorem clone_steps (pars kw new : Dict) (h : clone pars kw = .ok new) :
    checkArgs (mergeArgs pars kw) = .ok () ∧ compileArgs (mergeArgs pars kw) = .ok new := by
  unfold clone at h
  simp only [bind, Except.bind] at h
  cases hc : checkArgs (mergeArgs pars kw) with
  | error e => rw [hc] at h; cases h
  | ok u => rw [hc] at h; exact ⟨rfl, h⟩

theorem update_some (d e : Dict) (x : String) (h : (e x).isSome) : d.update e x = e x := by
  simp [Dict.update, h]

theorem update_none (d e : Dict) (x : String) (h : e x = none) : d.update e x = d x := by
  simp [Dict.update, h]

theorem clean_some {v : Val} (h : v ≠ .none) : clean (some v) = some v := by
  simp [clean, h]

/-- The dictionary of a run. -/
def okD (r : Except Err Dict) : Dict := r.toOption.getD .empty

/-- The exception of a run. -/
def errD : Except Err Dict → Option Err
  | .ok _ => none
  | .error e => some e

theorem run_ok {r : Except Err Dict} (h : errD r = none) : r = .ok (okD r) := by
  cases r with
  | ok d => rfl
  | error e => cases h

theorem run_err {r : Except Err Dict} {e : Err} (h : errD r = some e) : r = .error e := by
  cases r with
  | ok d => cases h
  | error e' => rw [Option.some.inj h]

/-- What `compile_args` hands to CLASS for a given name, if the CLASS name is not given besides. -/
theorem compile_hands_on (args pars : Dict) (h : compileArgs args = .ok pars) (x : String) (v : Val)
    (hx : args x = some v) (hv : v ≠ .none) (hs : x ∉ special) (hf : x ∉ verboseNames)
    (hc : canon x = x ∨ args (canon x) = none) : pars (canon x) = some v := by
  by_cases hA : ∃ pa ∈ simpleAliases, x = pa.2
  · obtain ⟨pa, hpa, rfl⟩ := hA
    have hcan : canon pa.2 = pa.1 ∧ pa.2 ≠ pa.1 := by
      clear hx hs hf hc
      revert pa; decide
    rw [hcan.1] at hc ⊢
    rw [compile_alias _ _ h _ hpa]
    rcases hc with hc | hc
    · exact absurd hc.symm hcan.2
    · rw [hc, hx]; exact clean_some hv
  by_cases hB : ∃ pa ∈ simpleAliases, x = pa.1
  · obtain ⟨pa, hpa, rfl⟩ := hB
    have hcan : canon pa.1 = pa.1 := by
      clear hx hs hf hc hA
      revert pa; decide
    rw [hcan, compile_alias _ _ h _ hpa, hx]
    exact clean_some hv
  have hcan : canon x = x := by
    have hn : ∀ pa ∈ simpleAliases, x ≠ pa.2 := fun pa hpa he => hA ⟨pa, hpa, he⟩
    simp only [simpleAliases, List.forall_mem_cons] at hn
    simp only [canon, hn, if_false]
  rw [hcan]
  by_cases hn : x = "N_ur"
  · subst hn
    rcases compile_ncdm _ _ h with ⟨_, _, _, e⟩ | ⟨_, _, _, _, _, _, _, _, _, e⟩
    · rw [e, hx]; exact clean_some hv
    · rw [e (by rw [hx]; simpa using hv), hx]
  · have hr : x ∉ ruled := by
      intro hr
      have : ∀ y ∈ ruled, y ∈ special ∨ y ∈ verboseNames ∨ y = "N_ur" ∨ (∃ pa ∈ simpleAliases, y = pa.2) ∨
          ∃ pa ∈ simpleAliases, y = pa.1 := by decide
      rcases this x hr with h1 | h1 | h1 | h1 | h1
      · exact hs h1
      · exact hf h1
      · exact hn h1
      · exact hA h1
      · exact hB h1
    rw [compile_other _ _ h x hr, update_some _ _ _ (by rw [hx]; rfl), hx]
    exact clean_some hv

/-! ## C64: the constructor -/

/-- **C64** (values). Every parameter given to the constructor, except flags, neutrino masses and the cosmological
constant which have their own rules below, reaches CLASS with the given value under its CLASS name, whatever the
defaults and the other parameters are.  The exceptions are the two pairs of names for one parameter that the conflict
table does not know: there the name without `0` wins silently (`both_names_ignored`). -/
theorem given_wins_partial (kw pars : Dict) (h : init kw = .ok pars) (x : String) (v : Val) (hx : kw x = some v)
    (hv : v ≠ .none) (hs : x ∉ special) (hf : x ∉ verboseNames)
    (h1 : x = "T0_cmb" → kw "T_cmb" = none) (h2 : x = "Omega0_k" → kw "Omega_k" = none) :
    pars (canon x) = some v := by
  obtain ⟨hc, hp, _⟩ := init_steps kw pars h
  refine compile_hands_on _ _ hp x v (by rw [update_some _ _ _ (by rw [hx]; rfl), hx]) hv hs hf ?_
  by_cases hcan : canon x = x
  · exact .inl hcan
  right
  have hk : kw (canon x) = none := by
    have key : ∀ y, y ∈ simpleAliases.map Prod.snd → y = "T0_cmb" ∨ y = "Omega0_k" ∨ canon y ∈ findEqcls y := by
      decide
    have hmem : x ∈ simpleAliases.map Prod.snd := by
      by_contra hn
      simp only [simpleAliases, List.map_cons, List.map_nil, List.mem_cons, List.not_mem_nil, or_false, not_or] at hn
      exact hcan (by simp only [canon, hn, if_false])
    rcases key x hmem with rfl | rfl | hk
    · exact h1 rfl
    · exact h2 rfl
    · exact checkArgs_ok kw hc x _ (by rw [hx]; rfl) hk hcan
  rw [update_none _ _ _ hk]
  have : ∀ y ∈ simpleAliases.map Prod.snd, defaults (canon y) = none := by decide +kernel
  have hmem : x ∈ simpleAliases.map Prod.snd := by
    by_contra hn
    simp only [simpleAliases, List.map_cons, List.map_nil, List.mem_cons, List.not_mem_nil, or_false, not_or] at hn
    exact hcan (by simp only [canon, hn, if_false])
  exact this x hmem

/-- **C64** (conflicts). Two different names of one class of the conflict table are always rejected. -/
theorem conflict_raises (kw : Dict) (x y : String) (hx : (kw x).isSome) (hy : (kw y).isSome) (hne : y ≠ x)
    (hxy : ∃ c ∈ conflicts, x ∈ c ∧ y ∈ c) (ho : ∀ z ∈ oldNames, kw z = none) : init kw = .error .valueError := by
  have heq : y ∈ findEqcls x := by
    obtain ⟨c, hc, h1, h2⟩ := hxy
    have : ∀ c ∈ conflicts, ∀ x ∈ c, findEqcls x = c := by decide
    rw [this c hc x h1]; exact h2
  have hce : checkArgs kw = .error .valueError := by
    cases hc : checkArgs kw with
    | ok u =>
      have := checkArgs_ok kw hc x y hx heq hne
      rw [this] at hy; cases hy
    | error e =>
      unfold checkArgs at hc
      split at hc
      · exact hc.symm
      · cases hc
  have hold : oldNames.any kw.has = false := by
    rw [List.any_eq_false]
    intro z hz
    simp [Dict.has, ho z hz]
  unfold init
  simp only [bind, Except.bind, pure, Except.pure, throw, throwThe, MonadExceptOf.throw, hold, Bool.false_eq_true,
    if_false, hce]

/-- **C64** (negation). `Cosmology(T_cmb=1, T0_cmb=2)` is accepted and one of the values is ignored; the same with
`Omega_k`/`Omega0_k` and with the spellings of the cosmological constant. -/
theorem both_names_ignored :
    (∃ pars, init (.lit [("T_cmb", .num 1), ("T0_cmb", .num 2)]) = .ok pars ∧
      pars "T_cmb" = some (.num 1) ∧ pars "T0_cmb" = none) ∧
    (∃ pars, init (.lit [("Omega_k", .num 1), ("Omega0_k", .num 2)]) = .ok pars ∧
      pars "Omega_k" = some (.num 1) ∧ pars "Omega0_k" = none) ∧
    ∃ pars, init (.lit [("Omega0_lambda", .num 1), ("Omega_lambda", .num 2)]) = .ok pars ∧
      pars "Omega_Lambda" = some (.num 1) ∧ pars "Omega_lambda" = none := by
  refine ⟨?_, ?_, ?_⟩ <;>
    (refine ⟨_, run_ok ?_, ?_, ?_⟩ <;> decide +kernel)

/-- **C64** (negation). The defaults are not removed when a conflicting name is given: `Cosmology(omega_b=...)`,
`Cosmology(**{'100*theta_s': ...})`, `Cosmology(Omega_g=...)` and `Cosmology(Omega0_ur=...)` pass two conflicting
parameters to CLASS, and the result cannot even be cloned. -/
theorem defaults_conflict :
    ∀ xy ∈ [("omega_b", "Omega_b"), ("omega_cdm", "Omega_cdm"), ("100*theta_s", "h"), ("Omega_g", "T_cmb"),
      ("Omega_ur", "N_ur"), ("omega_ur", "N_ur")],
      ∃ pars, init (.lit [(xy.1, .num 1)]) = .ok pars ∧ (pars xy.1).isSome ∧ (pars xy.2).isSome ∧
        xy.2 ∈ findEqcls xy.1 ∧ clone pars .empty = .error .valueError := by
  intro xy hxy
  simp only [List.mem_cons, List.not_mem_nil, or_false] at hxy
  rcases hxy with rfl | rfl | rfl | rfl | rfl | rfl <;>
    (refine ⟨_, run_ok ?_, ?_, ?_, ?_, run_err ?_⟩ <;> decide +kernel)

/-- **C64** (defaults). A parameter with a default value that is not given, under none of its names, has the default
value. -/
theorem default_kept (kw pars : Dict) (h : init kw = .ok pars) :
    ∀ x ∈ ["h", "T0_cmb", "Omega0_b", "Omega0_cdm", "P_k_max", "P_z_max", "gauge", "n_s"],
      kw x = none → kw (canon x) = none → pars (canon x) = defaults x := by
  obtain ⟨hc, hp, _⟩ := init_steps kw pars h
  intro x hx hk hk'
  have hd : ∀ x ∈ ["h", "T0_cmb", "Omega0_b", "Omega0_cdm", "P_k_max", "P_z_max", "gauge", "n_s"],
      ((defaults x).isSome ∧ defaults x ≠ some .none ∧ x ∉ special ∧ x ∉ verboseNames) ∧
        (canon x = x ∨ defaults (canon x) = none) := by decide +kernel
  obtain ⟨⟨d1, d2, d3, d4⟩, d5⟩ := hd x hx
  obtain ⟨v, hv⟩ := Option.isSome_iff_exists.mp d1
  rw [hv]
  refine compile_hands_on _ _ hp x v (by rw [update_none _ _ _ hk, hv]) (by rw [hv] at d2; simpa using d2) d3 d4 ?_
  rcases d5 with h | h
  · exact .inl h
  · right; rw [update_none _ _ _ hk', h]

/-- **C64** (nothing left over). CLASS never sees the names that are not its own, `verbose`, or a value None. -/
theorem class_names (kw pars : Dict) (h : init kw = .ok pars) :
    (∀ x ∈ ["T0_cmb", "Omega0_cdm", "Omega0_b", "Omega0_k", "Omega0_ur", "Omega_lambda", "Omega0_lambda",
      "Omega0_Lambda", "Omega0_fld", "Omega0_ncdm", "Omega0_g", "P_k_max", "P_z_max", "nonlinear", "verbose"],
      pars x = none) ∧ ∀ x, pars x ≠ some .none := by
  obtain ⟨_, hp, _⟩ := init_steps kw pars h
  refine ⟨?_, ?_⟩
  · intro x hx
    have : ∀ x ∈ ["T0_cmb", "Omega0_cdm", "Omega0_b", "Omega0_k", "Omega0_ur", "Omega_lambda", "Omega0_lambda",
      "Omega0_Lambda", "Omega0_fld", "Omega0_ncdm", "Omega0_g", "P_k_max", "P_z_max", "nonlinear", "verbose"],
      x = "verbose" ∨ x ∈ sources := by decide
    rcases this x hx with rfl | hx
    · exact compile_verbose _ _ hp
    · exact compile_source _ _ hp x hx
  · intro x
    obtain ⟨_, _, _, _, _, rfl⟩ := compile_steps _ _ hp
    rw [dropNone_get]
    unfold clean
    split <;> simp_all

/-- **C64** (cosmological constant). Without a dark energy fluid a given cosmological constant reaches CLASS if it is
given by one name only; with a fluid it is zero, and a positive one is rejected. -/
theorem lambda_set (kw pars : Dict) (h : init kw = .ok pars) (x : String) (hx : x ∈ lambdaNames) (q : ℚ)
    (hq : kw x = some (.num q)) (hone : ∀ y ∈ lambdaNames, y ≠ x → kw y = none) :
    (kw "w0_fld" = none → kw "wa_fld" = none → pars "Omega_Lambda" = some (.num q)) ∧
    ((kw "w0_fld").isSome ∨ (kw "wa_fld").isSome → q ≤ 0 ∧ pars "Omega_Lambda" = some (.num 0)) := by
  obtain ⟨_, hp, _⟩ := init_steps kw pars h
  have hd : ∀ y ∈ "w0_fld" :: "wa_fld" :: lambdaNames, defaults.update kw y = kw y := by
    intro y hy
    have : defaults y = none := by revert y; decide +kernel
    cases hk : kw y with
    | none => rw [update_none _ _ _ hk, this]
    | some v => rw [update_some _ _ _ (by rw [hk]; rfl), hk]
  have hl : lambdaOf (defaults.update kw) = some (.num q) := by
    unfold lambdaOf
    rw [hd _ (by decide), hd _ (by decide), hd _ (by decide), hd _ (by decide)]
    simp only [lambdaNames, List.mem_cons, List.not_mem_nil, or_false] at hx
    rcases hx with rfl | rfl | rfl | rfl
    · rw [hq]; rfl
    · rw [hone "Omega_Lambda" (by decide) (by decide), hq]; rfl
    · rw [hone "Omega_Lambda" (by decide) (by decide), hone "Omega0_Lambda" (by decide) (by decide), hq]; rfl
    · rw [hone "Omega_Lambda" (by decide) (by decide), hone "Omega0_Lambda" (by decide) (by decide),
        hone "Omega0_lambda" (by decide) (by decide), hq]; rfl
  have hc := compile_lambda _ _ hp
  rw [hd _ (by decide), hd _ (by decide), hl] at hc
  rcases hc with ⟨w1, w2, e⟩ | ⟨hw, hpos, e⟩
  · refine ⟨fun _ _ => by rw [e]; rfl, fun hw => ?_⟩
    rw [w1, w2] at hw; simp at hw
  · refine ⟨fun w1 w2 => ?_, fun _ => ⟨?_, e⟩⟩
    · rw [w1, w2] at hw; simp at hw
    · simpa [positive] using hpos

/-- **C64** (neutrinos). The masses, given as a list or a single number, reach CLASS as a list with their number; an empty
list or None means no massive neutrinos; a zero mass is rejected. `N_ur` is the given value, or else the one for which `N_eff = 3.046` according to the
notes of CLASS for this number of massive neutrinos, of which there can be at most three. -/
theorem neutrinos (kw pars : Dict) (h : init kw = .ok pars) (l : List ℚ)
    (hm : kw "m_ncdm" = some (.list l) ∨ (∃ q, l = [q] ∧ kw "m_ncdm" = some (.num q)) ∨
      (l = [] ∧ kw "m_ncdm" = some .none)) :
    0 ∉ l ∧ pars "N_ncdm" = some (.num l.length) ∧ pars "m_ncdm" = (if l = [] then none else some (.list l)) ∧
    (∀ v, kw "N_ur" = some v → v ≠ .none → pars "N_ur" = some v) ∧
    (kw "N_ur" = none ∨ kw "N_ur" = some .none → l.length ≤ 3 ∧
      pars "N_ur" = some (.num (if l.length = 0 then 3046/1000 else if l.length = 1 then 20328/10000
        else if l.length = 2 then 10196/10000 else 641/100000))) := by
  obtain ⟨_, hp, _⟩ := init_steps kw pars h
  have hm' : ∃ v, defaults.update kw "m_ncdm" = some v ∧ massList v = .ok (.list l) := by
    rcases hm with hm | ⟨q, rfl, hm⟩ | ⟨rfl, hm⟩
    · exact ⟨_, by rw [update_some _ _ _ (by rw [hm]; rfl), hm], rfl⟩
    · exact ⟨_, by rw [update_some _ _ _ (by rw [hm]; rfl), hm], rfl⟩
    · exact ⟨_, by rw [update_some _ _ _ (by rw [hm]; rfl), hm], rfl⟩
  obtain ⟨v, hm1, hm2⟩ := hm'
  rcases compile_ncdm _ _ hp with ⟨hn, _⟩ | ⟨v', m, hv, hml, hz, e1, e2, _, e4, e5⟩
  · rw [hm1] at hn; cases hn
  · rw [hm1] at hv
    obtain rfl := Option.some.inj hv
    rw [hm2] at hml
    obtain rfl := Except.ok.inj hml
    refine ⟨?_, e2, ?_, ?_, ?_⟩
    · simpa [massZero] using hz
    · rw [e1]
      cases l <;> simp [massCount]
    · intro v hv hne
      have : defaults.update kw "N_ur" = some v := by rw [update_some _ _ _ (by rw [hv]; rfl), hv]
      rw [e5 (by rw [this]; simpa using hne), this]
    · intro hu
      have : defaults.update kw "N_ur" = some .none := by
        rcases hu with hu | hu
        · rw [update_none _ _ _ hu]; decide +kernel
        · rw [update_some _ _ _ (by rw [hu]; rfl), hu]
      obtain ⟨n, h5, h6⟩ := e4 this
      simp only [massCount] at h5
      rw [h6]
      match hl : l.length with
      | 0 => rw [hl] at h5; simp [nurTable] at h5; simp [← h5]
      | 1 => rw [hl] at h5; simp [nurTable] at h5; simp [← h5]
      | 2 => rw [hl] at h5; simp [nurTable] at h5; simp [← h5]
      | 3 => rw [hl] at h5; simp [nurTable] at h5; simp [← h5]
      | k + 4 => rw [hl] at h5; simp [nurTable] at h5

/-- **C64** (nonlinear). CLASS gets `non linear = 'halofit'` exactly if the given value is true; both names cannot be
given. -/
theorem nonlinear_set (kw pars : Dict) (h : init kw = .ok pars) :
    (pars "non linear" = some (.str "halofit") ∨ pars "non linear" = none) ∧
    (pars "non linear" = some (.str "halofit") ↔
      ∃ x v, (x = "nonlinear" ∨ x = "non linear") ∧ kw x = some v ∧ truthy v = true) := by
  obtain ⟨hc, hp, _⟩ := init_steps kw pars h
  have hnl := compile_nonlinear _ _ hp
  have h1 : defaults.update kw "non linear" = kw "non linear" := by
    cases hk : kw "non linear" with
    | none => rw [update_none _ _ _ hk]; decide +kernel
    | some v => rw [update_some _ _ _ (by rw [hk]; rfl), hk]
  have h2 : defaults.update kw "nonlinear" = (kw "nonlinear").orElse fun _ => some (.bool false) := by
    cases hk : kw "nonlinear" with
    | none => rw [update_none _ _ _ hk]; decide +kernel
    | some v => rw [update_some _ _ _ (by rw [hk]; rfl), hk]; rfl
  rw [h1, h2] at hnl
  rw [hnl]
  refine ⟨by split <;> simp, ?_⟩
  have hboth : (kw "non linear").isSome → kw "nonlinear" = none := fun hs =>
    checkArgs_ok kw hc "non linear" "nonlinear" hs (by decide) (by decide)
  constructor
  · intro he
    cases ha : kw "non linear" with
    | some v =>
      rw [ha] at he
      refine ⟨"non linear", v, .inr rfl, ha, ?_⟩
      by_contra hn
      simp [hn] at he
    | none =>
      rw [ha] at he
      cases hb : kw "nonlinear" with
      | some v =>
        rw [hb] at he
        refine ⟨"nonlinear", v, .inl rfl, hb, ?_⟩
        by_contra hn
        simp [hn] at he
      | none => rw [hb] at he; simp [truthy] at he
  · rintro ⟨x, v, rfl | rfl, hv, ht⟩
    · cases ha : kw "non linear" with
      | some w => rw [hboth (by rw [ha]; rfl)] at hv; cases hv
      | none => simp [hv, ht]
    · simp [hv, ht]

/-- The statements above are about the default cosmology among others. -/
theorem default_cosmology : ∃ pars, init .empty = .ok pars ∧ pars "T_cmb" = some (.num (27255/10000)) ∧
    pars "N_ur" = some (.num (20328/10000)) ∧ pars "non linear" = none := by
  refine ⟨_, run_ok ?_, ?_, ?_, ?_⟩ <;> decide +kernel

/-! ## C65: clone -/

/-- The parameters are those of a cosmology: `compile_args` returned them, and the output was not switched off by
None. -/
def Valid (pars : Dict) : Prop :=
  (∃ args, compileArgs args = .ok pars) ∧ (pars "output").isSome ∧ (pars "extra metric transfer functions").isSome

/-- The parameters that change when `y` is given to `clone`: its conflicting names, its CLASS name, and the names
determined by it. -/
def touched (y : String) : List String :=
  [y, canon y] ++ findEqcls y ++ (if y ∈ lambdaNames then ["Omega_Lambda"] else []) ++
    (if y = "verbose" then verboseNames else []) ++
    (if y = "m_ncdm" then ["N_ncdm"] else []) ++ (if y = "w0_fld" ∨ y = "wa_fld" then ["Omega_Lambda"] else [])

theorem merge_new (pars kw : Dict) (x : String) (h : (kw x).isSome) : mergeArgs pars kw x = kw x :=
  update_some _ _ _ h

/-- What `merge_args` keeps. -/
theorem merge_old (pars kw : Dict) (x : String) (h : ∀ y, (kw y).isSome → x ≠ y ∧ x ∉ findEqcls y) :
    mergeArgs pars kw x = pars x := by
  have hx : kw x = none := by
    cases hk : kw x with
    | none => rfl
    | some v => exact absurd rfl (h x (by rw [hk]; rfl)).1
  unfold mergeArgs
  rw [update_none _ _ _ hx, if_neg]
  simp only [List.any_eq_true, Bool.and_eq_true, not_exists, not_and, Dict.has]
  intro y _ hy
  simpa using (h y hy).2

/-- What `merge_args` removes. -/
theorem merge_gone (pars kw : Dict) (x y : String) (hy : (kw y).isSome) (hx : kw x = none) (hxy : x ∈ findEqcls y) :
    mergeArgs pars kw x = none := by
  have hmem : y ∈ conflictNames := by
    unfold findEqcls at hxy
    cases hf : conflicts.find? fun c => c.contains y with
    | none => rw [hf] at hxy; simp at hxy
    | some c =>
      have h1 := List.find?_some hf
      have h2 := List.mem_of_find?_eq_some hf
      exact List.mem_flatten.mpr ⟨c, h2, by simpa using h1⟩
  unfold mergeArgs
  rw [update_none _ _ _ hx, if_pos]
  simp only [List.any_eq_true, Bool.and_eq_true, Dict.has]
  exact ⟨y, hmem, hy, by simpa using hxy⟩

/-- **C65** (changed parameters). A parameter given to `clone` has the given value in the new cosmology, whatever the
old one was; the new one contains none of its conflicting names. Missing: the names for which this fails
(`clone_ignores`). -/
theorem clone_sets_partial (pars kw new : Dict) (h : clone pars kw = .ok new)
    (x : String) (v : Val) (hx : kw x = some v) (hv : v ≠ .none) (hs : x ∉ special) (hf : x ∉ verboseNames)
    (hi : x ≠ "T0_cmb" ∧ x ≠ "Omega0_k") :
    new (canon x) = some v := by
  obtain ⟨hc, hp⟩ := clone_steps pars kw new h
  have hm : mergeArgs pars kw x = some v := by rw [merge_new _ _ _ (by rw [hx]; rfl), hx]
  refine compile_hands_on _ _ hp x v hm hv hs hf ?_
  by_cases hcan : canon x = x
  · exact .inl hcan
  right
  have key : ∀ y, y ∈ simpleAliases.map Prod.snd → y = "T0_cmb" ∨ y = "Omega0_k" ∨ canon y ∈ findEqcls y := by
    decide
  have hmem : x ∈ simpleAliases.map Prod.snd := by
    by_contra hn
    simp only [simpleAliases, List.map_cons, List.map_nil, List.mem_cons, List.not_mem_nil, or_false, not_or] at hn
    exact hcan (by simp only [canon, hn, if_false])
  rcases key x hmem with h1 | h1 | h1
  · exact absurd h1 hi.1
  · exact absurd h1 hi.2
  · exact checkArgs_ok _ hc x _ (by rw [hm]; rfl) h1 hcan

/-- **C65** (negation). `clone(T0_cmb=3)`, `clone(Omega0_k=...)` and `clone(Omega0_lambda=...)` of a cosmology that has
a value for it return a cosmology with the old value. -/
theorem clone_ignores :
    (∃ pars new, init .empty = .ok pars ∧ clone pars (.lit [("T0_cmb", .num 3)]) = .ok new ∧
      new "T_cmb" = some (.num (27255/10000))) ∧
    (∃ pars new, init (.lit [("Omega0_k", .num (1/10))]) = .ok pars ∧
      clone pars (.lit [("Omega0_k", .num (2/10))]) = .ok new ∧ new "Omega_k" = some (.num (1/10))) ∧
    ∃ pars new, init (.lit [("Omega0_lambda", .num (7/10))]) = .ok pars ∧
      clone pars (.lit [("Omega0_lambda", .num (6/10))]) = .ok new ∧ new "Omega_Lambda" = some (.num (7/10)) := by
  refine ⟨?_, ?_, ?_⟩ <;>
    (refine ⟨_, _, run_ok ?_, run_ok ?_, ?_⟩ <;> decide +kernel)

/-- Names of one class remove each other. -/
theorem eqcls_symm (x y : String) (h : x ∈ findEqcls y) : y ∈ findEqcls x ∧ findEqcls x = findEqcls y := by
  have hmem : y ∈ conflictNames := by
    unfold findEqcls at h
    cases hf : conflicts.find? fun c => c.contains y with
    | none => rw [hf] at h; simp at h
    | some c =>
      have h1 := List.find?_some hf
      have h2 := List.mem_of_find?_eq_some hf
      exact List.mem_flatten.mpr ⟨c, h2, by simpa using h1⟩
  have : ∀ y ∈ conflictNames, ∀ x ∈ findEqcls y, y ∈ findEqcls x ∧ findEqcls x = findEqcls y := by decide
  exact this y hmem x h

theorem valid_clean {pars : Dict} (h : Valid pars) (x : String) : clean (pars x) = pars x := by
  obtain ⟨⟨args, ha⟩, _⟩ := h
  obtain ⟨_, _, _, _, _, rfl⟩ := compile_steps _ _ ha
  rw [dropNone_get, clean_clean]

theorem valid_source {pars : Dict} (h : Valid pars) (x : String) (hx : x ∈ sources) : pars x = none := by
  obtain ⟨⟨args, ha⟩, _⟩ := h
  exact compile_source _ _ ha x hx

/-- **C65** (other parameters). Every parameter of a cosmology that is not touched by the parameters given to `clone`
has the same value in the new cosmology. -/
theorem clone_keeps (pars kw new : Dict) (hv : Valid pars) (h : clone pars kw = .ok new) (x : String)
    (hx : ∀ y, (kw y).isSome → x ∉ touched y) : new x = pars x := by
  obtain ⟨hc, hp⟩ := clone_steps pars kw new h
  have hold : ∀ y, (kw y).isSome → x ≠ y ∧ x ∉ findEqcls y := by
    intro y hy
    have := hx y hy
    simp only [touched, List.mem_append, List.mem_cons, not_or] at this
    exact ⟨this.1.1.1.1.1.1, this.1.1.1.1.2⟩
  have hm : mergeArgs pars kw x = pars x := merge_old _ _ _ hold
  have hkx : kw x = none := by
    cases hk : kw x with
    | none => rfl
    | some v => exact absurd rfl (hold x (by rw [hk]; rfl)).1
  have hnot : ∀ y, x ∈ touched y → kw y = none := by
    intro y hy
    cases hk : kw y with
    | none => rfl
    | some v => exact absurd hy (hx y (by rw [hk]; rfl))
  -- a name that is removed and not given again is absent
  have hsrc : ∀ y ∈ sources, kw y = none → mergeArgs pars kw y = none := by
    intro y hy hk
    unfold mergeArgs
    rw [update_none _ _ _ hk]
    split
    · rfl
    · exact valid_source hv y hy
  by_cases hr : x ∉ ruled
  · rw [compile_other _ _ hp x hr]
    by_cases h1 : x = "output"
    · subst h1
      rw [start_output, hm]
      obtain ⟨v, e⟩ := Option.isSome_iff_exists.mp hv.2.1
      have := valid_clean hv "output"
      rw [e] at this ⊢
      exact this
    by_cases h2 : x = "extra metric transfer functions"
    · subst h2
      rw [start_extra, hm]
      obtain ⟨v, e⟩ := Option.isSome_iff_exists.mp hv.2.2
      have := valid_clean hv "extra metric transfer functions"
      rw [e] at this ⊢
      exact this
    rw [start_get _ _ h1 h2, hm, valid_clean hv]
  rw [not_not] at hr
  have hcases : ∀ x ∈ ruled, x ∈ sources ∨ (∃ pa ∈ simpleAliases, x = pa.1) ∨ x ∈ verboseNames ∨
      x ∈ ["verbose", "m_ncdm", "N_ncdm", "N_ur", "Omega_Lambda", "non linear"] := by decide
  rcases hcases x hr with h1 | ⟨pa, hpa, rfl⟩ | h1 | h1
  · rw [compile_source _ _ hp x h1, valid_source hv x h1]
  · rw [compile_alias _ _ hp pa hpa, hm]
    have hcan : pa.1 ∈ touched pa.2 ∧ pa.2 ∈ sources := by
      have : ∀ pa ∈ simpleAliases, pa.1 ∈ touched pa.2 ∧ pa.2 ∈ sources := by decide
      exact this pa hpa
    rw [hsrc pa.2 hcan.2 (hnot _ hcan.1)]
    have := valid_clean hv pa.1
    cases e : pars pa.1 with
    | none => rfl
    | some v => rw [e] at this; exact this
  · rw [compile_flag _ _ hp x h1]
    have hvb : mergeArgs pars kw "verbose" = none := by
      have hk : kw "verbose" = none := by
        apply hnot
        have : ∀ x ∈ verboseNames, x ∈ touched "verbose" := by decide
        exact this x h1
      rw [merge_old]
      · obtain ⟨⟨args, ha⟩, _⟩ := hv
        exact compile_verbose _ _ ha
      · intro y hy
        constructor
        · rintro rfl; rw [hk] at hy; cases hy
        · intro hcl
          have := (eqcls_symm _ _ hcl).1
          exact absurd this (by
            have : findEqcls "verbose" = [] := by decide
            rw [this]; simp)
    rw [hvb, hm]
    simp only [Option.map_none, Option.getD_none, Bool.false_and, Bool.false_eq_true, if_false]
    exact valid_clean hv x
  · simp only [List.mem_cons, List.not_mem_nil, or_false] at h1
    obtain ⟨⟨args, ha⟩, hv2⟩ := id hv
    rcases h1 with rfl | rfl | rfl | rfl | rfl | rfl
    · rw [compile_verbose _ _ hp, compile_verbose _ _ ha]
    · -- m_ncdm
      rcases compile_ncdm _ _ hp with ⟨e1, e2, _⟩ | ⟨v, m, e1, e2, _, e3, _⟩
      · rw [e2, ← hm, e1]
      · rw [e3]
        rw [hm] at e1
        rcases compile_ncdm _ _ ha with ⟨_, f2, _⟩ | ⟨v', m', f1, f2, _, f3, _⟩
        · rw [f2] at e1; cases e1
        · rw [e1] at f3
          split at f3
          · obtain rfl := Option.some.inj f3
            have hmm : m = v := by
              cases v' <;> simp only [massList, Except.ok.injEq] at f2 <;> subst f2 <;>
                exact (Except.ok.inj e2).symm
            subst hmm
            rename_i hpos
            rw [if_pos hpos, e1]
          · cases f3
    · -- N_ncdm
      have hkm : kw "m_ncdm" = none := hnot _ (by decide)
      rcases compile_ncdm _ _ hp with ⟨_, _, e3, _⟩ | ⟨v, m, e1, e2, _, _, e4, _⟩
      · rw [e3, hm, valid_clean hv]
      · rw [e4]
        have he : pars "m_ncdm" = some v := by
          unfold mergeArgs at e1
          rw [update_none _ _ _ hkm] at e1
          split at e1
          · cases e1
          · exact e1
        rcases compile_ncdm _ _ ha with ⟨_, f2, _⟩ | ⟨v', m', f1, f2, _, f3, f4, _⟩
        · rw [f2] at he; cases he
        · rw [he] at f3
          split at f3
          · obtain rfl := Option.some.inj f3
            have hmm : m = v := by
              cases v' <;> simp only [massList, Except.ok.injEq] at f2 <;> subst f2 <;>
                exact (Except.ok.inj e2).symm
            rw [hmm, f4]
          · cases f3
    · -- N_ur
      rcases compile_ncdm _ _ hp with ⟨_, _, _, e4⟩ | ⟨v, m, e1, e2, _, _, _, _, _, e4⟩
      · rw [e4, hm, valid_clean hv]
      · rw [e4, hm]
        rw [hm]
        intro hc
        have := valid_clean hv "N_ur"
        rw [hc] at this
        cases this
    · -- Omega_Lambda
      have hl : lambdaOf (mergeArgs pars kw) = pars "Omega_Lambda" := by
        unfold lambdaOf
        rw [hm, hsrc _ (by decide) (hnot _ (by decide)), hsrc _ (by decide) (hnot _ (by decide)),
          hsrc _ (by decide) (hnot _ (by decide))]
        cases pars "Omega_Lambda" <;> rfl
      rcases compile_lambda _ _ hp with ⟨_, _, e⟩ | ⟨hw, _, e⟩
      · rw [e, hl, valid_clean hv]
      · rw [e]
        have hw' : (pars "w0_fld").isSome ∨ (pars "wa_fld").isSome := by
          have : ∀ y, y = "w0_fld" ∨ y = "wa_fld" → mergeArgs pars kw y = pars y := by
            intro y hy
            apply merge_old
            intro z hz
            constructor
            · rintro rfl
              rw [hnot y (by rcases hy with rfl | rfl <;> decide)] at hz; cases hz
            · intro hcl
              have h2 := (eqcls_symm _ _ hcl).1
              rcases hy with rfl | rfl
              · have : findEqcls "w0_fld" = [] := by decide
                rw [this] at h2; cases h2
              · have : findEqcls "wa_fld" = [] := by decide
                rw [this] at h2; cases h2
          rw [this _ (.inl rfl), this _ (.inr rfl)] at hw
          exact hw
        have hw'' : (args "w0_fld").isSome ∨ (args "wa_fld").isSome := by
          have hg : ∀ y, y = "w0_fld" ∨ y = "wa_fld" → pars y = clean (args y) := by
            intro y hy
            rw [compile_other _ _ ha y (by rcases hy with rfl | rfl <;> decide),
              start_get _ _ (by rcases hy with rfl | rfl <;> decide) (by rcases hy with rfl | rfl <;> decide)]
          rcases hw' with hw' | hw'
          · left
            rw [hg _ (.inl rfl)] at hw'
            cases ha' : args "w0_fld" with
            | none => rw [ha'] at hw'; cases hw'
            | some v => rfl
          · right
            rw [hg _ (.inr rfl)] at hw'
            cases ha' : args "wa_fld" with
            | none => rw [ha'] at hw'; cases hw'
            | some v => rfl
        rcases compile_lambda _ _ ha with ⟨w1, w2, _⟩ | ⟨_, _, f⟩
        · rw [w1, w2] at hw''; simp at hw''
        · rw [f]
    · -- non linear
      rw [compile_nonlinear _ _ hp, compile_nonlinear _ _ ha, hm, compile_nonlinear _ _ ha,
        hsrc _ (by decide) (hnot _ (by decide))]
      split <;> simp [truthy]

/-- `compile_args` succeeds on consistent arguments. -/
theorem compile_ok (args : Dict)
    (h1 : ∀ v, args "m_ncdm" = some v → ∃ m, massList v = .ok m ∧ massZero m = false ∧ (args "N_ur").isSome ∧
      (args "N_ur" = some .none → massCount m ≤ 3))
    (h2 : checkGauge args = .ok ())
    (h3 : (args "w0_fld" = none ∧ args "wa_fld" = none) ∨ positive (lambdaOf args) = .ok false) :
    ∃ pars, compileArgs args = .ok pars := by
  have e0 : setVerbose args (setAliases args aliases (startPars.update args)) "Omega_Lambda" = lambdaOf args := by
    rw [setVerbose_frame _ _ _ (by decide) (by decide)]
    simp only [setAliases, aliases, List.foldl_cons, List.foldl_nil, setAlias_get, String.reduceEq, if_true,
      if_false, ite_self]
    rw [start_get _ _ (by decide) (by decide)]
    unfold lambdaOf
    cases args "Omega_Lambda" <;> cases args "Omega0_Lambda" <;> cases args "Omega0_lambda" <;>
      cases args "Omega_lambda" <;> rfl
  generalize hp0 : setVerbose args (setAliases args aliases (startPars.update args)) = p0 at e0
  have hn : ∃ p1, setNcdm args p0 = .ok p1 := by
    unfold setNcdm
    cases hm : args "m_ncdm" with
    | none => exact ⟨_, rfl⟩
    | some v =>
      obtain ⟨m, g1, g2, g3, g4⟩ := h1 v hm
      simp only [bind, Except.bind, pure, Except.pure, throw, throwThe, MonadExceptOf.throw, g1, g2,
        Bool.false_eq_true, if_false]
      obtain ⟨w, hw⟩ := Option.isSome_iff_exists.mp g3
      rw [hw]
      cases w with
      | none =>
        have hlt : massCount m < nurTable.length := by
          have := g4 hw
          simp [nurTable]; omega
        simp only [List.getElem?_eq_getElem hlt]
        exact ⟨_, rfl⟩
      | _ => exact ⟨_, rfl⟩
  obtain ⟨p1, hp1⟩ := hn
  have hl : setNur args p1 "Omega_Lambda" = lambdaOf args := by
    rw [setNur_frame _ _ _ (by decide), ← e0]
    rcases setNcdm_spec _ _ _ hp1 with ⟨_, rfl⟩ | ⟨_, _, _, _, _, _, _, _, _, _, hf⟩
    · rfl
    · exact hf _ (by decide) (by decide) (by decide)
  have hf : ∃ p2, setFluid args (setNur args p1) = .ok p2 := by
    unfold setFluid
    rcases h3 with ⟨w1, w2⟩ | h3
    · simp only [Dict.has, w1, w2, Option.isSome_none, Bool.or_self, Bool.false_eq_true, if_false]
      exact ⟨_, rfl⟩
    · split
      · rw [hl, h3]
        exact ⟨_, rfl⟩
      · exact ⟨_, rfl⟩
  obtain ⟨p2, hp2⟩ := hf
  refine ⟨dropNone (setNonlinear (setAliases args lateAliases p2)), ?_⟩
  unfold compileArgs
  simp only [bind, Except.bind, pure, Except.pure, hp0, hp1, h2, hp2]

/-- What the parameters of a cosmology satisfy. -/
theorem valid_args {pars : Dict} (hv : Valid pars) :
    (∀ v, pars "m_ncdm" = some v → massList v = .ok v ∧ massZero v = false ∧ (pars "N_ur").isSome) ∧
    pars "N_ur" ≠ some .none ∧ checkGauge pars = .ok () ∧
    ((pars "w0_fld" = none ∧ pars "wa_fld" = none) ∨ pars "Omega_Lambda" = some (.num 0)) := by
  have hcl := valid_clean hv
  obtain ⟨⟨args, ha⟩, _⟩ := hv
  have hne : ∀ x, pars x ≠ some .none := by
    intro x hc
    have := hcl x
    rw [hc] at this; cases this
  refine ⟨?_, hne _, ?_, ?_⟩
  · intro v hm
    rcases compile_ncdm _ _ ha with ⟨_, f2, _⟩ | ⟨v', m', f1, f2, f0, f3, f4, f5, f6, f7⟩
    · rw [f2] at hm; cases hm
    · rw [hm] at f3
      split at f3
      · obtain rfl := Option.some.inj f3
        refine ⟨?_, f0, ?_⟩
        · cases v' <;> simp only [massList, Except.ok.injEq] at f2 <;> subst f2 <;> rfl
        · by_cases hu : args "N_ur" = some .none
          · obtain ⟨n, _, e⟩ := f6 hu
            rw [e]; rfl
          · rw [f7 hu]; exact f5
      · cases f3
  · obtain ⟨_, _, _, hg, _, _⟩ := compile_steps _ _ ha
    have : pars "gauge" = clean (args "gauge") := by
      rw [compile_other _ _ ha _ (by decide), start_get _ _ (by decide) (by decide)]
    unfold checkGauge at hg ⊢
    rw [this]
    cases hga : args "gauge" with
    | none => rfl
    | some v =>
      rw [hga] at hg
      by_cases hvn : v = .none
      · subst hvn; rfl
      · rw [clean_some hvn]; exact hg
  · have hw : ∀ y, y = "w0_fld" ∨ y = "wa_fld" → pars y = clean (args y) := by
      intro y hy
      rw [compile_other _ _ ha y (by rcases hy with rfl | rfl <;> decide),
        start_get _ _ (by rcases hy with rfl | rfl <;> decide) (by rcases hy with rfl | rfl <;> decide)]
    rcases compile_lambda _ _ ha with ⟨w1, w2, _⟩ | ⟨_, _, e⟩
    · left
      rw [hw _ (.inl rfl), hw _ (.inr rfl), w1, w2]
      exact ⟨rfl, rfl⟩
    · exact .inr e

/-- Merging with nothing. -/
theorem merge_empty (pars : Dict) : mergeArgs pars .empty = pars := by
  funext x
  exact merge_old _ _ _ fun y hy => by cases hy

/-- **C65** (identity). `clone()` of a cosmology whose parameters have no conflict (see `defaults_conflict`) gives the
same parameters; `compile_args` leaves compiled parameters alone. -/
theorem clone_id (pars : Dict) (hv : Valid pars) (hc : checkArgs pars = .ok ()) : clone pars .empty = .ok pars := by
  obtain ⟨a1, a2, a3, a4⟩ := valid_args hv
  have hl : lambdaOf pars = pars "Omega_Lambda" := by
    unfold lambdaOf
    rw [valid_source hv "Omega0_Lambda" (by decide), valid_source hv "Omega0_lambda" (by decide),
      valid_source hv "Omega_lambda" (by decide)]
    cases pars "Omega_Lambda" <;> rfl
  obtain ⟨new, hnew⟩ := compile_ok pars
    (fun v hm => ⟨v, (a1 v hm).1, (a1 v hm).2.1, (a1 v hm).2.2, fun h => absurd h a2⟩) a3
    (a4.imp id fun h => by rw [hl, h]; rfl)
  have hcl : clone pars .empty = .ok new := by
    unfold clone
    rw [merge_empty]
    simp only [bind, Except.bind, hc, hnew]
  rw [hcl]
  congr 1
  funext x
  exact clone_keeps pars .empty new hv hcl x fun y hy => by cases hy

/-- **C65** (identity, negation). A cosmology created with `output=None`, which leaves the output to CLASS, is changed
by `clone()`. -/
theorem clone_output : ∃ pars new, init (.lit [("output", .none)]) = .ok pars ∧ clone pars .empty = .ok new ∧
    pars "output" = none ∧ new "output" = some (.str "vTk dTk mPk") := by
  refine ⟨_, _, run_ok ?_, run_ok ?_, ?_, ?_⟩ <;> decide +kernel

/-- **C65** (neutrinos, negation). `clone(m_ncdm=...)` keeps the `N_ur` that was inferred for the old number of massive
neutrinos, unlike the constructor with the same masses; and `clone(Omega0_ur=...)` of a cosmology with massive neutrinos
raises KeyError. -/
theorem clone_neutrinos :
    (∃ pars new direct, init .empty = .ok pars ∧ clone pars (.lit [("m_ncdm", .list [])]) = .ok new ∧
      init (.lit [("m_ncdm", .list [])]) = .ok direct ∧
      new "N_ur" = some (.num (20328/10000)) ∧ direct "N_ur" = some (.num (3046/1000)) ∧
      new "N_ncdm" = direct "N_ncdm") ∧
    ∃ pars, init .empty = .ok pars ∧ clone pars (.lit [("Omega0_ur", .num (1/100))]) = .error .keyError := by
  refine ⟨⟨_, _, _, run_ok ?_, run_ok ?_, run_ok ?_, ?_, ?_, ?_⟩, ⟨_, run_ok ?_, run_err ?_⟩⟩ <;> decide +kernel

/-! ## C66: match -/

/-- `clone` with ordinary parameters succeeds. -/
theorem clone_ok (pars kw : Dict) (hv : Valid pars) (hc : checkArgs (mergeArgs pars kw) = .ok ())
    (hk : ∀ y, (kw y).isSome → y ∉ ["gauge", "w0_fld", "wa_fld", "m_ncdm", "N_ur", "Omega_ur", "omega_ur",
      "Omega0_ur", "Omega_ncdm", "omega_ncdm", "Omega0_ncdm"] ++ lambdaNames) : ∃ new, clone pars kw = .ok new := by
  have hm : ∀ x ∈ ["gauge", "w0_fld", "wa_fld", "m_ncdm", "N_ur"] ++ lambdaNames, mergeArgs pars kw x = pars x := by
    intro x hx
    apply merge_old
    intro y hy
    have hn := hk y hy
    refine ⟨?_, fun hcl => ?_⟩
    · rintro rfl
      apply hn
      clear hn hy
      revert x; decide
    · have h2 := (eqcls_symm _ _ hcl).1
      apply hn
      have : ∀ x ∈ ["gauge", "w0_fld", "wa_fld", "m_ncdm", "N_ur"] ++ lambdaNames, ∀ y ∈ findEqcls x,
        y ∈ ["gauge", "w0_fld", "wa_fld", "m_ncdm", "N_ur", "Omega_ur", "omega_ur",
          "Omega0_ur", "Omega_ncdm", "omega_ncdm", "Omega0_ncdm"] ++ lambdaNames := by decide
      exact this x hx y h2
  obtain ⟨a1, a2, a3, a4⟩ := valid_args hv
  have hl : lambdaOf (mergeArgs pars kw) = pars "Omega_Lambda" := by
    unfold lambdaOf
    rw [hm "Omega_Lambda" (by decide), hm "Omega0_Lambda" (by decide), hm "Omega0_lambda" (by decide),
      hm "Omega_lambda" (by decide), valid_source hv "Omega0_Lambda" (by decide),
      valid_source hv "Omega0_lambda" (by decide), valid_source hv "Omega_lambda" (by decide)]
    cases pars "Omega_Lambda" <;> rfl
  obtain ⟨new, hnew⟩ := compile_ok (mergeArgs pars kw)
    (by
      rw [hm "m_ncdm" (by decide), hm "N_ur" (by decide)]
      exact fun v hm => ⟨v, (a1 v hm).1, (a1 v hm).2.1, (a1 v hm).2.2, fun h => absurd h a2⟩)
    (by unfold checkGauge at a3 ⊢; rw [hm "gauge" (by decide)]; exact a3)
    (by
      rw [hm "w0_fld" (by decide), hm "wa_fld" (by decide), hl]
      exact a4.imp id fun h => by rw [h]; rfl)
  refine ⟨new, ?_⟩
  unfold clone
  simp only [bind, Except.bind, hc, hnew]

/-- What `match` needs to know about CLASS: densities are the given ones, the densities of massive neutrinos and of
decaying dark matter do not depend on those of baryons and cold dark matter, and the variance of the linear density
field is proportional to `A_s` (stated without square roots). -/
structure Engine.Lawful (e : Engine) : Prop where
  b : ∀ p x, p "Omega_b" = some (.num x) → e.Omega0_b p = x
  cdm : ∀ p x, p "Omega_cdm" = some (.num x) → e.Omega0_cdm p = x
  amp : ∀ p x, p "A_s" = some (.num x) → e.A_s p = x
  rest : ∀ p q, (∀ k, k ∉ ["Omega_b", "omega_b", "Omega0_b", "Omega_cdm", "omega_cdm", "Omega0_cdm"] → p k = q k) →
    e.ncdm p = e.ncdm q ∧ e.Omega0_dcdm p = e.Omega0_dcdm q
  scale : ∀ p q r, 0 ≤ r → (∀ k, k ∉ ["A_s", "ln10^{10}A_s"] → p k = q k) → e.A_s p = e.A_s q * r ^ 2 →
    e.sigma8 p = r * e.sigma8 q

theorem lit_isSome (l : List (String × Val)) (y : String) (h : (Dict.lit l y).isSome) : y ∈ l.map Prod.fst := by
  unfold Dict.lit at h
  induction l with
  | nil => simp at h
  | cons a l ih =>
    rw [List.lookup_cons] at h
    by_cases hy : (y == a.1) = true
    · simp at hy; simp [hy]
    · simp only [Bool.not_eq_true] at hy
      rw [hy] at h
      exact List.mem_cons_of_mem _ (ih h)

/-- **C66** (`sigma8`). The new cosmology has the requested `sigma8`, and every parameter other than the amplitude is
the same. -/
theorem match_sigma8 (e : Engine) (he : e.Lawful) (pars new : Dict) (hv : Valid pars) (s : ℚ) (hs : 0 ≤ s)
    (h0 : 0 < e.sigma8 pars) (h : matchOne e pars (some s) none none = .ok new) :
    e.sigma8 new = s ∧ ∀ k, k ∉ ["A_s", "ln10^{10}A_s"] → new k = pars k := by
  have hk : ∀ k, k ∉ ["A_s", "ln10^{10}A_s"] → new k = pars k := by
    intro k hk
    refine clone_keeps pars _ new hv h k ?_
    intro y hy
    have := lit_isSome _ _ hy
    simp only [List.map_cons, List.map_nil, List.mem_singleton] at this
    subst this
    have ht : ∀ z ∈ touched "A_s", z ∈ ["A_s", "ln10^{10}A_s"] := by decide
    exact fun hc => hk (ht k hc)
  refine ⟨?_, hk⟩
  have hA' := he.amp new _ (clone_sets_partial pars _ new h "A_s" _ (by simp [Dict.lit]; rfl) (by simp) (by decide)
    (by decide) (by decide))
  have hsc := he.scale new pars _ (div_nonneg hs h0.le) hk hA'
  rw [hsc]
  field_simp

/-- **C66** (`Omega0_cb`). The new cosmology has the requested density of baryons and cold dark matter, in the old
proportion, and all parameters other than these two densities are the same. -/
theorem match_cb (e : Engine) (he : e.Lawful) (pars new : Dict) (hv : Valid pars) (x : ℚ)
    (h0 : e.Omega0_cdm pars + e.Omega0_b pars ≠ 0) (h : matchOne e pars none (some x) none = .ok new) :
    e.Omega0_cdm new + e.Omega0_b new = x ∧ e.Omega0_b new * e.Omega0_cdm pars = e.Omega0_cdm new * e.Omega0_b pars ∧
    ∀ k, k ∉ ["Omega_b", "omega_b", "Omega0_b", "Omega_cdm", "omega_cdm", "Omega0_cdm"] → new k = pars k := by
  have h' : matchCb e pars x = .ok new := h
  have hb := he.b new _ (clone_sets_partial pars _ new h' "Omega_b" _ (by simp [Dict.lit]; rfl) (by simp) (by decide)
    (by decide) (by decide))
  have hcd := he.cdm new _ (clone_sets_partial pars _ new h' "Omega_cdm" _
    (by simp [Dict.lit, List.lookup_cons]; rfl) (by simp) (by decide) (by decide) (by decide))
  refine ⟨?_, ?_, ?_⟩
  · rw [hb, hcd]; field_simp
  · rw [hb, hcd]; ring
  · intro k hk
    refine clone_keeps pars _ new hv h' k ?_
    intro y hy
    have := lit_isSome _ _ hy
    simp only [List.map_cons, List.map_nil, List.mem_cons, List.not_mem_nil, or_false] at this
    have ht : ∀ y, y = "Omega_b" ∨ y = "Omega_cdm" → ∀ z ∈ touched y,
        z ∈ ["Omega_b", "omega_b", "Omega0_b", "Omega_cdm", "omega_cdm", "Omega0_cdm"] := by
      rintro y (rfl | rfl) <;> decide
    exact fun hc => hk (ht y this k hc)

/-- **C66** (`Omega0_m`). The new cosmology has the requested density of all matter. -/
theorem match_m (e : Engine) (he : e.Lawful) (pars new : Dict) (hv : Valid pars) (x : ℚ)
    (h0 : e.Omega0_cdm pars + e.Omega0_b pars ≠ 0) (h : matchOne e pars none none (some x) = .ok new) :
    e.Omega0_cdm new + e.Omega0_b new + e.ncdm new + e.Omega0_dcdm new = x ∧
    e.Omega0_b new * e.Omega0_cdm pars = e.Omega0_cdm new * e.Omega0_b pars := by
  obtain ⟨h1, h2, h3⟩ := match_cb e he pars new hv (x - e.ncdm pars - e.Omega0_dcdm pars) h0 h
  obtain ⟨h4, h5⟩ := he.rest new pars h3
  exact ⟨by rw [h4, h5, h1]; ring, h2⟩

theorem checkArgs_of (args : Dict) (h : ∀ x y, (args x).isSome → y ∈ findEqcls x → y ≠ x → args y = none) :
    checkArgs args = .ok () := by
  unfold checkArgs
  rw [if_neg]
  simp only [List.any_eq_true, Bool.and_eq_true, not_exists, not_and, Dict.has, decide_eq_true_eq]
  intro x _ hx y hy hne
  rw [h x y hx hy hne]
  simp

/-- **C66** (one at a time). `match` with exactly one parameter succeeds for every cosmology without conflicts, and
raises ValueError otherwise. -/
theorem match_one (e : Engine) (pars : Dict) (hv : Valid pars) (hc : checkArgs pars = .ok ()) (s cb m : Option ℚ) :
    ((s.toList ++ cb.toList ++ m.toList).length = 1 → ∃ new, matchOne e pars s cb m = .ok new) ∧
    ((s.toList ++ cb.toList ++ m.toList).length ≠ 1 → matchOne e pars s cb m = .error .valueError) := by
  have hgen : ∀ (l : List (String × Val)),
      (∀ a ∈ l.map Prod.fst, a = "A_s" ∨ a = "Omega_b" ∨ a = "Omega_cdm") →
      ∃ new, clone pars (.lit l) = .ok new := by
    intro l hl
    refine clone_ok pars _ hv ?_ ?_
    · apply checkArgs_of
      intro x y hx hxy hne
      have hsym := (eqcls_symm _ _ hxy)
      have hky : Dict.lit l y = none ∨ (Dict.lit l y).isSome := by
        cases Dict.lit l y <;> simp
      have hdis : ∀ a b : String, (a = "A_s" ∨ a = "Omega_b" ∨ a = "Omega_cdm") →
          (b = "A_s" ∨ b = "Omega_b" ∨ b = "Omega_cdm") → a ∈ findEqcls b → a = b := by
        rintro a b (rfl | rfl | rfl) (rfl | rfl | rfl) <;> decide
      cases hkx : Dict.lit l x with
      | some v =>
        have hx1 := hl x (lit_isSome l x (by rw [hkx]; rfl))
        have hy0 : Dict.lit l y = none := by
          rcases hky with h | h
          · exact h
          · exact absurd (hdis _ _ (hl y (lit_isSome l y h)) hx1 hxy) hne
        exact merge_gone _ _ y x (by rw [hkx]; rfl) hy0 hxy
      | none =>
        rcases hky with hky | hky
        · -- both old
          by_cases hany : ∃ z, (Dict.lit l z).isSome ∧ y ∈ findEqcls z
          · obtain ⟨z, hz, hyz⟩ := hany
            exact merge_gone _ _ y z hz hky hyz
          · have hy' : mergeArgs pars (Dict.lit l) y = pars y := by
              apply merge_old
              intro z hz
              refine ⟨?_, fun h => hany ⟨z, hz, h⟩⟩
              rintro rfl; rw [hky] at hz; cases hz
            rw [hy']
            refine checkArgs_ok pars hc x y ?_ hxy hne
            unfold mergeArgs at hx
            rw [update_none _ _ _ hkx] at hx
            split at hx
            · cases hx
            · exact hx
        · -- the old name was removed
          have := merge_gone pars (Dict.lit l) x y hky hkx hsym.1
          rw [this] at hx; cases hx
    · intro y hy
      rcases hl y (lit_isSome l y hy) with rfl | rfl | rfl <;> decide
  constructor
  · intro h
    cases s <;> cases cb <;> cases m <;> simp at h
    · exact hgen _ (by simp)
    · exact hgen _ (by simp)
    · exact hgen _ (by simp)
  · intro h
    cases s <;> cases cb <;> cases m <;> first | rfl | simp at h

/-- The default cosmology is valid and without conflicts, and there is an engine of this kind. -/
theorem match_example : ∃ pars, init .empty = .ok pars ∧ Valid pars ∧ checkArgs pars = .ok () := by
  have h := run_ok (r := init .empty) (by decide +kernel)
  refine ⟨_, h, ⟨⟨_, (init_steps _ _ h).2.1⟩, ?_, ?_⟩, ?_⟩
  · decide +kernel
  · decide +kernel
  · decide +kernel

/-- The numbers of a dictionary. -/
def numOf (d : Dict) (k : String) : ℚ := ((d k).map fun v => if let .num q := v then q else 0).getD 0

theorem numOf_some {d : Dict} {k : String} {x : ℚ} (h : d k = some (.num x)) : numOf d k = x := by
  simp [numOf, h]

theorem sq_root (x r : ℚ) (hr : 0 ≤ r) (h : x = r ^ 2) : Rat.sqrt x = r := by
  rw [h, pow_two, Rat.sqrt_eq, abs_of_nonneg hr]

/-- An engine of this kind exists, with a density of neutrinos and positive `sigma8`: `sigma8` is the square root of the
amplitude if that is rational. -/
def exampleEngine : Engine where
  A_s p := ((p "A_s").map fun _ => numOf p "A_s").getD 1
  sigma8 p :=
    let a := ((p "A_s").map fun _ => numOf p "A_s").getD 1
    if Rat.sqrt a ^ 2 = a then Rat.sqrt a else 0
  Omega0_b p := numOf p "Omega_b"
  Omega0_cdm p := numOf p "Omega_cdm"
  ncdm p := numOf p "N_ncdm" / 100
  Omega0_dcdm p := numOf p "Omega_dcdmdr"

theorem example_lawful : exampleEngine.Lawful where
  b _ _ h := numOf_some h
  cdm _ _ h := numOf_some h
  amp p x h := by simp [exampleEngine, h, numOf]
  rest p q h := by
    simp only [exampleEngine, numOf]
    rw [h "N_ncdm" (by decide), h "Omega_dcdmdr" (by decide)]
    exact ⟨rfl, rfl⟩
  scale p q r hr _ hA := by
    simp only [exampleEngine] at hA ⊢
    generalize ((p "A_s").map fun _ => numOf p "A_s").getD 1 = a at hA
    generalize ((q "A_s").map fun _ => numOf q "A_s").getD 1 = b at hA
    have hs0 := Rat.sqrt_nonneg b
    by_cases hb : Rat.sqrt b ^ 2 = b
    · have ha : Rat.sqrt a = Rat.sqrt b * r := sq_root a _ (mul_nonneg hs0 hr) (by rw [hA, mul_pow, hb])
      rw [if_pos hb, if_pos (by rw [ha, mul_pow, hb, hA]), ha]
      ring
    · rw [if_neg hb, mul_zero]
      by_cases h0 : r = 0
      · have ha : Rat.sqrt a = 0 := sq_root a 0 le_rfl (by rw [hA, h0]; simp)
        rw [ha]; simp
      · rw [if_neg]
        intro ha
        apply hb
        have : b = (Rat.sqrt a / r) ^ 2 := by
          rw [div_pow, ha, hA]; field_simp
        rw [sq_root b _ (div_nonneg (Rat.sqrt_nonneg a) hr) this, ← this]

/-- The hypotheses of the theorems on `match` at the default cosmology. -/
theorem match_case : ∃ pars, init .empty = .ok pars ∧ Valid pars ∧ 0 < exampleEngine.sigma8 pars ∧
    exampleEngine.Omega0_cdm pars + exampleEngine.Omega0_b pars ≠ 0 ∧
    (∃ new, matchOne exampleEngine pars (some (8/10)) none none = .ok new ∧ new "A_s" = some (.num (64/100))) := by
  obtain ⟨pars, h, hv, hc⟩ := match_example
  have e : pars = okD (init .empty) := by rw [h]; rfl
  refine ⟨pars, h, hv, ?_, ?_, ?_⟩
  · rw [e]; decide +kernel
  · rw [e]; decide +kernel
  · obtain ⟨new, hn⟩ := (match_one exampleEngine pars hv hc (some (8/10)) none none).1 rfl
    refine ⟨new, hn, ?_⟩
    have e2 : new = okD (matchOne exampleEngine (okD (init .empty)) (some (8/10)) none none) := by
      rw [← e, hn]; rfl
    rw [e2]
    decide +kernel

/-! ## C67: conversion to and from astropy -/

theorem toDE_fromDE (w0 wa : ℚ) (h : w0 ≠ -1 ∨ wa = 0) :
    fromDE (toDE w0 wa) = if w0 = -1 ∧ wa = 0 then none else some (w0, wa) := by
  by_cases h1 : wa = 0
  · by_cases h2 : w0 = -1 <;> simp [toDE, fromDE, h1, h2]
  · have h2 : w0 ≠ -1 := h.resolve_right h1
    simp [toDE, fromDE, h1, h2]

theorem filter_pos (m : List ℚ) (n : Nat) (h : ∀ x ∈ m, 0 < x) :
    (m ++ List.replicate n 0).filter (fun x => decide (x > 0)) = m := by
  rw [List.filter_append, List.filter_eq_self.mpr (by simpa using h), List.filter_eq_nil_iff.mpr, List.append_nil]
  intro x hx
  rw [List.eq_of_mem_replicate hx]
  simp

/-- **C67**. A cosmology converted to astropy and back has the same Hubble parameter, temperature, densities and dark
energy, the same neutrino masses in decreasing order, and the curvature of astropy. Missing: `w0 = -1` together with
`wa ≠ 0` (`astropy_w0`). -/
theorem astropy_roundtrip_partial (n : Nat) (d : Derived) (ok0 : ℚ) (a : Astropy) (args : Dict)
    (hpos : ∀ x ∈ d.m_ncdm, 0 < x) (hw : d.w0 ≠ -1 ∨ d.wa = 0)
    (h1 : toAstropy n d = .ok a) (h2 : fromAstropy a ok0 = .ok args) :
    args "h" = some (.num d.h) ∧ args "T0_cmb" = some (.num d.Tcmb0) ∧ args "Omega0_b" = some (.num d.Omega0_b) ∧
    args "Omega0_cdm" = some (.num d.Omega0_cdm) ∧ args "Omega0_k" = some (.num ok0) ∧
    (∃ m, args "m_ncdm" = some (.list m) ∧ m.Perm d.m_ncdm ∧ m.Pairwise (fun x y => y ≤ x)) ∧
    (d.w0 = -1 ∧ d.wa = 0 → args "w0_fld" = none ∧ args "wa_fld" = none) ∧
    (¬ (d.w0 = -1 ∧ d.wa = 0) → args "w0_fld" = some (.num d.w0) ∧ args "wa_fld" = some (.num d.wa)) := by
  unfold toAstropy at h1
  simp only [bind, Except.bind, pure, Except.pure] at h1
  cases hnu : nuMasses n d.m_ncdm with
  | error e => rw [hnu] at h1; cases h1
  | ok nu =>
    rw [hnu] at h1
    obtain rfl := Except.ok.inj h1
    unfold fromAstropy at h2
    simp only [bind, Except.bind, pure, Except.pure, throw, throwThe, MonadExceptOf.throw] at h2
    have hm : (fromMasses nu).Perm d.m_ncdm ∧ (fromMasses nu).Pairwise (fun x y => y ≤ x) := by
      have hsort : ∀ l : List ℚ, (l.mergeSort fun a b => decide (b ≤ a)).Pairwise (fun x y => y ≤ x) := by
        intro l
        have := List.pairwise_mergeSort (le := fun a b : ℚ => decide (b ≤ a))
          (fun a b c h1 h2 => by simp only [decide_eq_true_eq] at *; exact le_trans h2 h1)
          (fun a b => by simpa using le_total b a) l
        simpa using this
      unfold nuMasses at hnu
      split at hnu
      · rename_i he
        obtain rfl := Except.ok.inj hnu
        rw [he]
        exact ⟨List.Perm.refl _, List.Pairwise.nil⟩
      · split at hnu
        · obtain rfl := Except.ok.inj hnu
          simp only [fromMasses]
          rw [filter_pos _ _ hpos]
          exact ⟨List.mergeSort_perm _ _, hsort _⟩
        · cases hnu
    have hde := toDE_fromDE d.w0 d.wa hw
    rw [hde] at h2
    have hargs : ∃ nur : ℚ, args = Dict.lit ([("h", .num (100 * d.h / 100)), ("T0_cmb", .num d.Tcmb0),
        ("Omega0_b", .num d.Omega0_b), ("Omega0_cdm", .num (d.Omega0_b + d.Omega0_cdm - d.Omega0_b)),
        ("N_ur", .num nur), ("m_ncdm", .list (fromMasses nu)), ("Omega0_k", .num ok0)] ++
        ((if d.w0 = -1 ∧ d.wa = 0 then none else some (d.w0, d.wa)).map fun (w : ℚ × ℚ) =>
          [("w0_fld", Val.num w.1), ("wa_fld", .num w.2), ("Omega0_Lambda", .num 0)]).getD []) := by
      split at h2
      · cases h2
      · split at h2
        · exact ⟨_, (Except.ok.inj h2).symm⟩
        · split at h2
          · exact ⟨_, (Except.ok.inj h2).symm⟩
          · cases h2
    obtain ⟨nur, rfl⟩ := hargs
    refine ⟨?_, ?_, ?_, ?_, ?_, ⟨fromMasses nu, ?_, hm⟩, ?_, ?_⟩
    · simp [Dict.lit, List.lookup_cons]
    · simp [Dict.lit, List.lookup_cons]
    · simp [Dict.lit, List.lookup_cons]
    · simp [Dict.lit, List.lookup_cons]
    · simp [Dict.lit, List.lookup_cons]
    · simp [Dict.lit, List.lookup_cons]
    · intro hc
      simp [Dict.lit, List.lookup_cons, hc]
    · intro hc
      rw [if_neg hc]
      simp [Dict.lit, List.lookup_cons]

/-- **C67** (negation). For `w0 = -1` and `wa = 1/2` the astropy cosmology has `w0 = 1/2`. -/
theorem astropy_w0 (n : Nat) (d : Derived) (h0 : d.w0 = -1) (ha : d.wa ≠ 0) (a : Astropy)
    (h : toAstropy n d = .ok a) : a.de = .w0wa d.wa d.wa := by
  unfold toAstropy at h
  simp only [bind, Except.bind, pure, Except.pure] at h
  cases hnu : nuMasses n d.m_ncdm with
  | error e => rw [hnu] at h; cases h
  | ok nu =>
    rw [hnu] at h
    obtain rfl := Except.ok.inj h
    simp [toDE, h0, ha]

/-- **C67** (negation). A cosmology with more massive neutrinos than `floor(Neff)` cannot be converted. -/
theorem astropy_masses (n : Nat) (d : Derived) (h : n < d.m_ncdm.length) : toAstropy n d = .error .valueError := by
  have : d.m_ncdm ≠ [] := by intro hc; rw [hc] at h; simp at h
  unfold toAstropy nuMasses
  rw [if_neg this, if_neg (by omega)]
  rfl

/-- **C67** (success). Every other cosmology with baryons and at most three massive neutrinos makes the round trip. -/
theorem astropy_ok (n : Nat) (d : Derived) (ok0 : ℚ) (hb : 0 < d.Omega0_b) (hn : d.m_ncdm.length ≤ n)
    (h3 : d.m_ncdm.length ≤ 3) : ∃ a args, toAstropy n d = .ok a ∧ fromAstropy a ok0 = .ok args := by
  have hnu : ∃ nu, nuMasses n d.m_ncdm = .ok nu ∧ (fromMasses nu).length ≤ 3 := by
    unfold nuMasses
    by_cases he : d.m_ncdm = []
    · rw [if_pos he]; exact ⟨_, rfl, by simp [fromMasses]⟩
    · rw [if_neg he, if_pos hn]
      refine ⟨_, rfl, ?_⟩
      simp only [fromMasses, List.length_mergeSort, List.filter_append, List.length_append]
      have h1 := List.length_filter_le (fun m : ℚ => decide (m > 0)) d.m_ncdm
      have h2 : (List.replicate (n - d.m_ncdm.length) (0 : ℚ)).filter (fun m => decide (m > 0)) = [] := by
        rw [List.filter_eq_nil_iff]
        intro x hx
        rw [List.eq_of_mem_replicate hx]; simp
      rw [h2]
      simp only [List.length_nil]
      omega
  obtain ⟨nu, hnu, hl⟩ := hnu
  have hA : ∃ a, toAstropy n d = .ok a ∧ a.Ob0 = d.Omega0_b ∧ a.m_nu = nu := by
    unfold toAstropy
    simp only [bind, Except.bind, pure, Except.pure, hnu]
    exact ⟨_, rfl, rfl, rfl⟩
  obtain ⟨a, ha, hob, hm⟩ := hA
  refine ⟨a, ?_⟩
  unfold fromAstropy
  simp only [bind, Except.bind, pure, Except.pure, throw, throwThe, MonadExceptOf.throw]
  rw [if_neg (by rw [hob]; exact not_le.mpr hb), hm]
  by_cases h0 : (fromMasses nu).length = 0
  · rw [if_pos h0]; exact ⟨_, ha, rfl⟩
  · rw [if_neg h0]
    have hlt : (fromMasses nu).length - 1 < nurMassive.length := by simp [nurMassive]; omega
    rw [List.getElem?_eq_getElem hlt]
    exact ⟨_, ha, rfl⟩

/-- A dark energy fluid and two massive neutrinos meet the hypotheses. -/
example : ∃ a args, toAstropy 3 ⟨7/10, 5/100, 25/100, 27/10, 3046/1000, [1/100, 5/100], 0, 7/10, -9/10, 1/10⟩ = .ok a ∧
    fromAstropy a 0 = .ok args ∧ args "wa_fld" = some (.num (1/10)) := by
  obtain ⟨a, args, h1, h2⟩ := astropy_ok 3
    ⟨7/10, 5/100, 25/100, 27/10, 3046/1000, [1/100, 5/100], 0, 7/10, -9/10, 1/10⟩ 0 (by norm_num) (by simp) (by simp)
  exact ⟨a, args, h1, h2, ((astropy_roundtrip_partial 3 _ 0 a args (by simp; norm_num) (.inl (by norm_num)) h1 h2).2.2.2.2.2.2.2
    (by norm_num)).2⟩

/-- Which values are false. -/
theorem truthy_false (v : Val) : truthy v = false ↔ v = .none ∨ v = .bool false ∨ v = .num 0 ∨ v = .str "" ∨ v = .list [] ∨ v = .strs [] := by
  cases v <;> simp [truthy]

/-- `pars.get('Omega_Lambda', 0) > 0`: an absent one is not positive, a number and a flag compare, others are an error. -/
theorem positive_spec (v : Option Val) : (positive v = .ok true ↔ (∃ q, 0 < q ∧ v = some (.num q)) ∨ v = some (.bool true)) ∧
    (positive v = .ok false ↔ v = none ∨ (∃ q, q ≤ 0 ∧ v = some (.num q)) ∨ v = some (.bool false)) := by
  rcases v with _ | v
  · simp [positive]
  · cases v <;> simp [positive]

end NBK.Cosmo
