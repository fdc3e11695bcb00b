import Verif.Cosmo.Model
import Mathlib.Tactic.Ring

set_option linter.unusedSimpArgs false

/-! What `compile_args` does to each name. -/
namespace NBK.Cosmo

/-- A value that is not None. -/
def clean (v : Option Val) : Option Val := if v = some .none then none else v

theorem dropNone_get (p : Dict) (x : String) : dropNone p x = clean (p x) := rfl

theorem clean_clean (v : Option Val) : clean (clean v) = clean v := by
  unfold clean; split <;> simp_all

theorem setAlias_get (args pars : Dict) (p a x : String) :
    setAlias args pars p a x = if (args a).isSome then
      (if x = p then (args p).orElse (fun _ => args a) else if x = a then none else pars x) else pars x := by
  unfold setAlias
  cases h : args a with
  | none => simp
  | some v =>
    simp only [Dict.set, Dict.pop, Option.isSome_some, if_true]
    split
    · cases args p <;> rfl
    · rfl

/-- The names which are aliases. -/
def sources : List String := aliases.map Prod.snd ++ lateAliases.map Prod.snd

/-- Aliases do not touch other names. -/
theorem setAliases_frame (args : Dict) (l : List (String × String)) (pars : Dict) (x : String)
    (h : ∀ pa ∈ l, x ≠ pa.1 ∧ x ≠ pa.2) : setAliases args l pars x = pars x := by
  unfold setAliases
  induction l generalizing pars with
  | nil => rfl
  | cons pa l ih =>
    rw [List.foldl_cons, ih _ fun q hq => h q (by simp [hq]), setAlias_get]
    have := h pa (by simp)
    simp [this.1, this.2]

/-- An alias is removed. -/
theorem setAliases_source (args : Dict) (l : List (String × String)) (pars : Dict) (x : String)
    (hp : ∀ pa ∈ l, x ≠ pa.1) (hx : ∃ pa ∈ l, pa.2 = x) (h0 : args x = none → pars x = none) :
    setAliases args l pars x = none := by
  have keep : ∀ (l : List (String × String)) (pars : Dict), (∀ pa ∈ l, x ≠ pa.1) → pars x = none →
      setAliases args l pars x = none := by
    intro l
    induction l with
    | nil => intro pars _ h; exact h
    | cons pa l ih =>
      intro pars hp h
      unfold setAliases
      rw [List.foldl_cons]
      refine ih _ (fun q hq => hp q (by simp [hq])) ?_
      rw [setAlias_get]
      have := hp pa (by simp)
      simp [this, h]
  induction l generalizing pars with
  | nil => obtain ⟨_, h, _⟩ := hx; simp at h
  | cons pa l ih =>
    unfold setAliases
    rw [List.foldl_cons]
    have hne := hp pa (by simp)
    by_cases hxa : pa.2 = x
    · refine keep l _ (fun q hq => hp q (by simp [hq])) ?_
      rw [setAlias_get, hxa]
      cases ha : args x with
      | none => simp [h0 ha]
      | some v => simp [hne]
    · refine ih _ (fun q hq => hp q (by simp [hq])) ?_ ?_
      · obtain ⟨q, hq, e⟩ := hx
        rcases List.mem_cons.mp hq with rfl | hq
        · exact absurd e hxa
        · exact ⟨q, hq, e⟩
      · intro ha
        rw [setAlias_get]
        simp [hne, Ne.symm hxa, h0 ha]

/-- The steps of `compile_args`. -/
theorem compile_steps (args pars : Dict) (h : compileArgs args = .ok pars) :
    ∃ p1 p2, setNcdm args (setVerbose args (setAliases args aliases (startPars.update args))) = .ok p1 ∧
      checkGauge args = .ok () ∧ setFluid args (setNur args p1) = .ok p2 ∧
      pars = dropNone (setNonlinear (setAliases args lateAliases p2)) := by
  unfold compileArgs at h
  simp only [bind, Except.bind, pure, Except.pure] at h
  cases h1 : setNcdm args (setVerbose args (setAliases args aliases (startPars.update args))) with
  | error e => rw [h1] at h; cases h
  | ok p1 =>
    rw [h1] at h
    simp only at h
    cases h2 : checkGauge args with
    | error e => rw [h2] at h; cases h
    | ok u =>
      rw [h2] at h
      simp only at h
      cases h3 : setFluid args (setNur args p1) with
      | error e => rw [h3] at h; cases h
      | ok p2 =>
        rw [h3] at h
        simp only [Except.ok.injEq] at h
        exact ⟨p1, p2, rfl, rfl, h3, h.symm⟩

theorem setNcdm_spec (args p p1 : Dict) (h : setNcdm args p = .ok p1) :
    (args "m_ncdm" = none ∧ p1 = p) ∨
    ∃ v m, args "m_ncdm" = some v ∧ massList v = .ok m ∧ massZero m = false ∧ (args "N_ur").isSome ∧
      p1 "N_ncdm" = some (.num (massCount m)) ∧ p1 "m_ncdm" = (if massCount m > 0 then some m else none) ∧
      (args "N_ur" = some .none → ∃ n, nurTable[massCount m]? = some n ∧ p1 "N_ur" = some (.num n)) ∧
      (args "N_ur" ≠ some .none → p1 "N_ur" = p "N_ur") ∧
      ∀ x, x ≠ "N_ncdm" → x ≠ "m_ncdm" → x ≠ "N_ur" → p1 x = p x := by
  unfold setNcdm at h
  cases hm : args "m_ncdm" with
  | none => rw [hm] at h; exact .inl ⟨rfl, (Except.ok.inj h).symm⟩
  | some v =>
    right
    rw [hm] at h
    simp only [bind, Except.bind, pure, Except.pure, throw, throwThe, MonadExceptOf.throw] at h
    cases hl : massList v with
    | error e => rw [hl] at h; cases h
    | ok m =>
      rw [hl] at h
      simp only at h
      cases hz : massZero m with
      | true => rw [hz] at h; cases h
      | false =>
        rw [hz] at h
        simp only [Bool.false_eq_true, if_false] at h
        refine ⟨v, m, rfl, hl, hz, ?_⟩
        cases hn : args "N_ur" with
        | none => rw [hn] at h; cases h
        | some w =>
          rw [hn] at h
          cases w with
          | none =>
            simp only at h
            cases ht : nurTable[massCount m]? with
            | none => rw [ht] at h; cases h
            | some n =>
              rw [ht] at h
              simp only [Except.ok.injEq] at h
              subst h
              refine ⟨rfl, ?_, ?_, fun _ => ⟨n, rfl, by simp [Dict.set]⟩, fun h => absurd rfl h, ?_⟩
              · by_cases hc : massCount m > 0 <;> simp [Dict.set, Dict.pop, hc]
              · by_cases hc : massCount m > 0 <;> simp [Dict.set, Dict.pop, hc]
              · intro x h1 h2 h3
                by_cases hc : massCount m > 0 <;> simp [Dict.set, Dict.pop, hc, h1, h2, h3]
          | _ =>
            simp only [Except.ok.injEq] at h
            subst h
            refine ⟨rfl, ?_, ?_, fun h => by simp at h, fun _ => ?_, ?_⟩
            · by_cases hc : massCount m > 0 <;> simp [Dict.set, Dict.pop, hc]
            · by_cases hc : massCount m > 0 <;> simp [Dict.set, Dict.pop, hc]
            · by_cases hc : massCount m > 0 <;> simp [Dict.set, Dict.pop, hc]
            · intro x h1 h2 h3
              by_cases hc : massCount m > 0 <;> simp [Dict.set, Dict.pop, hc, h1, h2, h3]

theorem setFluid_spec (args p p2 : Dict) (h : setFluid args p = .ok p2) :
    (args "w0_fld" = none ∧ args "wa_fld" = none ∧ p2 = p) ∨
    (((args "w0_fld").isSome ∨ (args "wa_fld").isSome) ∧ positive (p "Omega_Lambda") = .ok false ∧
      p2 "Omega_Lambda" = some (.num 0) ∧ ∀ x, x ≠ "Omega_Lambda" → p2 x = p x) := by
  unfold setFluid at h
  by_cases hw : (args.has "w0_fld" || args.has "wa_fld") = true
  · rw [if_pos hw] at h
    right
    simp only [bind, Except.bind, pure, Except.pure, throw, throwThe, MonadExceptOf.throw] at h
    cases hp : positive (p "Omega_Lambda") with
    | error e => rw [hp] at h; cases h
    | ok b =>
      rw [hp] at h
      cases b with
      | true => simp at h
      | false =>
        simp only [Bool.false_eq_true, if_false, Except.ok.injEq] at h
        subst h
        refine ⟨by simpa [Dict.has] using hw, rfl, by simp [Dict.set], fun x hx => by simp [Dict.set, hx]⟩
  · rw [if_neg hw] at h
    left
    have hw' : (args "w0_fld").isSome = false ∧ (args "wa_fld").isSome = false := by
      simpa [Dict.has] using hw
    exact ⟨by simpa using hw'.1, by simpa using hw'.2, (Except.ok.inj h).symm⟩

theorem setVerbose_frame (args p : Dict) (x : String) (h1 : x ≠ "verbose") (h2 : x ∉ verboseNames) :
    setVerbose args p x = p x := by
  unfold setVerbose
  cases args "verbose" with
  | none => rfl
  | some v =>
    simp only
    split <;> simp [Dict.pop, h1, h2]

theorem setNur_frame (args p : Dict) (x : String) (h : x ≠ "N_ur") : setNur args p x = p x := by
  unfold setNur
  cases args "N_ur" with
  | none => rfl
  | some v => cases v <;> simp [Dict.set, h]

theorem setNonlinear_frame (p : Dict) (x : String) (h : x ≠ "non linear") : setNonlinear p x = p x := by
  unfold setNonlinear
  split <;> simp [Dict.set, Dict.pop, h]

theorem start_get (args : Dict) (x : String) (h1 : x ≠ "output") (h2 : x ≠ "extra metric transfer functions") :
    startPars.update args x = args x := by
  unfold Dict.update startPars Dict.lit
  cases hx : args x with
  | none =>
    have e1 : (x == "output") = false := by rw [beq_eq_false_iff_ne]; exact h1
    have e2 : (x == "extra metric transfer functions") = false := by rw [beq_eq_false_iff_ne]; exact h2
    simp [List.lookup, e1, e2]
  | some v => simp

theorem start_output (args : Dict) : startPars.update args "output" =
    (args "output").orElse fun _ => some (.str "vTk dTk mPk") := by
  unfold Dict.update
  cases h : args "output" with
  | none => simp [startPars, Dict.lit, List.lookup]
  | some v => simp

theorem start_extra (args : Dict) : startPars.update args "extra metric transfer functions" =
    (args "extra metric transfer functions").orElse fun _ => some (.str "y") := by
  unfold Dict.update
  cases h : args "extra metric transfer functions" with
  | none => simp [startPars, Dict.lit, List.lookup]
  | some v => simp

/-- The names with their own rules. -/
def own : List String := ["verbose", "m_ncdm", "N_ncdm", "N_ur", "Omega_Lambda", "non linear"] ++ verboseNames

/-- All names with a rule. -/
def ruled : List String :=
  own ++ aliases.map Prod.fst ++ aliases.map Prod.snd ++ lateAliases.map Prod.fst ++ lateAliases.map Prod.snd

theorem ruled_ne (x : String) (h : x ∉ ruled) :
    x ∉ own ∧ (∀ pa ∈ aliases, x ≠ pa.1 ∧ x ≠ pa.2) ∧ ∀ pa ∈ lateAliases, x ≠ pa.1 ∧ x ≠ pa.2 := by
  simp only [ruled, List.mem_append, not_or] at h
  obtain ⟨⟨⟨⟨h1, h2⟩, h3⟩, h4⟩, h5⟩ := h
  refine ⟨h1, fun pa hpa => ⟨?_, ?_⟩, fun pa hpa => ⟨?_, ?_⟩⟩
  · rintro rfl; exact h2 (List.mem_map.mpr ⟨pa, hpa, rfl⟩)
  · rintro rfl; exact h3 (List.mem_map.mpr ⟨pa, hpa, rfl⟩)
  · rintro rfl; exact h4 (List.mem_map.mpr ⟨pa, hpa, rfl⟩)
  · rintro rfl; exact h5 (List.mem_map.mpr ⟨pa, hpa, rfl⟩)

/-- Names without own rule are only affected by the aliases and the removal of None. -/
theorem compile_get (args pars : Dict) (h : compileArgs args = .ok pars) (x : String) (hx : x ∉ own) :
    pars x = clean (setAliases args lateAliases
      (fun y => if y = x then setAliases args aliases (startPars.update args) x else none) x) := by
  obtain ⟨p1, p2, h1, _, h3, rfl⟩ := compile_steps args pars h
  simp only [own, List.mem_append, List.mem_cons, not_or, List.not_mem_nil, or_false] at hx
  obtain ⟨⟨n1, n2, n3, n4, n5, n6⟩, n7⟩ := hx
  rw [dropNone_get, setNonlinear_frame _ _ n6]
  congr 1
  have e2 : p2 x = setAliases args aliases (startPars.update args) x := by
    have e2 : p2 x = setNur args p1 x := by
      rcases setFluid_spec _ _ _ h3 with ⟨_, _, rfl⟩ | ⟨_, _, _, hf⟩
      · rfl
      · exact hf x n5
    have e1 : p1 x = setVerbose args (setAliases args aliases (startPars.update args)) x := by
      rcases setNcdm_spec _ _ _ h1 with ⟨_, rfl⟩ | ⟨_, _, _, _, _, _, _, _, _, _, hf⟩
      · rfl
      · exact hf x n3 n2 n4
    rw [e2, setNur_frame _ _ _ n4, e1, setVerbose_frame _ _ _ n1 n7]
  -- the late aliases look at the dictionary only at `x`
  have key : ∀ (l : List (String × String)) (p q : Dict), p x = q x →
      setAliases args l p x = setAliases args l q x := by
    intro l
    induction l with
    | nil => intro p q h; exact h
    | cons pa l ih =>
      intro p q h
      unfold setAliases
      rw [List.foldl_cons, List.foldl_cons]
      exact ih _ _ (by rw [setAlias_get, setAlias_get, h])
  apply key
  simp [e2]

/-- A name without any rule keeps the value given to it. -/
theorem compile_other (args pars : Dict) (h : compileArgs args = .ok pars) (x : String) (hx : x ∉ ruled) :
    pars x = clean (startPars.update args x) := by
  obtain ⟨h1, h2, h3⟩ := ruled_ne x hx
  rw [compile_get args pars h x h1, setAliases_frame _ _ _ _ h3]
  simp only [if_true]
  rw [setAliases_frame _ _ _ _ h2]

/-- The CLASS names with one other name: CLASS name and other name. -/
def simpleAliases : List (String × String) := [
  ("T_cmb", "T0_cmb"), ("Omega_cdm", "Omega0_cdm"), ("Omega_b", "Omega0_b"), ("Omega_k", "Omega0_k"),
  ("Omega_ur", "Omega0_ur"), ("Omega_fld", "Omega0_fld"), ("Omega_ncdm", "Omega0_ncdm"),
  ("Omega_g", "Omega0_g"), ("P_k_max_h/Mpc", "P_k_max"), ("z_max_pk", "P_z_max")]

/-- The CLASS name gets its own value if given, otherwise that of the other name. -/
theorem compile_alias (args pars : Dict) (h : compileArgs args = .ok pars) (pa : String × String)
    (hpa : pa ∈ simpleAliases) : pars pa.1 = clean ((args pa.1).orElse fun _ => args pa.2) := by
  have key : ∀ p a : String, p ∉ own → p ≠ "output" → p ≠ "extra metric transfer functions" →
      (setAliases args lateAliases
      (fun y => if y = p then setAliases args aliases (startPars.update args) p else none) p =
        (args p).orElse fun _ => args a) → pars p = clean ((args p).orElse fun _ => args a) := by
    intro p a hp _ _ he
    rw [compile_get args pars h p hp, he]
  simp only [simpleAliases, List.mem_cons, List.not_mem_nil, or_false] at hpa
  rcases hpa with rfl | rfl | rfl | rfl | rfl | rfl | rfl | rfl | rfl | rfl
  all_goals
    refine key _ _ (by decide) (by decide) (by decide) ?_
    simp only [setAliases, aliases, lateAliases, List.foldl_cons, List.foldl_nil, setAlias_get, String.reduceEq,
      if_true, if_false, ite_self]
    rw [start_get _ _ (by decide) (by decide)]
    split
    · rfl
    · rename_i hn
      simp only [Option.isSome_iff_ne_none, ne_eq, not_not] at hn
      rw [hn]
      simp

/-- All other names are gone. -/
theorem compile_source (args pars : Dict) (h : compileArgs args = .ok pars) (x : String) (hx : x ∈ sources) :
    pars x = none := by
  have key : ∀ a : String, a ∉ own → a ≠ "output" → a ≠ "extra metric transfer functions" →
      (setAliases args lateAliases
      (fun y => if y = a then setAliases args aliases (startPars.update args) a else none) a = none) →
      pars a = none := by
    intro p hp _ _ he
    rw [compile_get args pars h p hp, he]
    rfl
  simp only [sources, aliases, lateAliases, List.map_cons, List.map_nil, List.cons_append, List.nil_append,
    List.mem_cons, List.not_mem_nil, or_false] at hx
  rcases hx with rfl | rfl | rfl | rfl | rfl | rfl | rfl | rfl | rfl | rfl | rfl | rfl | rfl | rfl
  all_goals
    refine key _ (by decide) (by decide) (by decide) ?_
    simp only [setAliases, aliases, lateAliases, List.foldl_cons, List.foldl_nil, setAlias_get, String.reduceEq,
      if_true, if_false, ite_self]
    rw [start_get _ _ (by decide) (by decide)]
    split
    · rfl
    · rename_i hn
      simpa only [Option.isSome_iff_ne_none, ne_eq, not_not] using hn

theorem compile_verbose (args pars : Dict) (h : compileArgs args = .ok pars) : pars "verbose" = none := by
  obtain ⟨p1, p2, h1, _, h3, rfl⟩ := compile_steps args pars h
  rw [dropNone_get, setNonlinear_frame _ _ (by decide), setAliases_frame _ _ _ _ (by decide)]
  have e2 : p2 "verbose" = setNur args p1 "verbose" := by
    rcases setFluid_spec _ _ _ h3 with ⟨_, _, rfl⟩ | ⟨_, _, _, hf⟩
    · rfl
    · exact hf _ (by decide)
  have e1 : p1 "verbose" = setVerbose args (setAliases args aliases (startPars.update args)) "verbose" := by
    rcases setNcdm_spec _ _ _ h1 with ⟨_, rfl⟩ | ⟨_, _, _, _, _, _, _, _, _, _, hf⟩
    · rfl
    · exact hf _ (by decide) (by decide) (by decide)
  rw [e2, setNur_frame _ _ _ (by decide), e1]
  unfold setVerbose
  cases hv : args "verbose" with
  | none =>
    simp only
    rw [setAliases_frame _ _ _ _ (by decide), start_get _ _ (by decide) (by decide), hv]
    rfl
  | some v =>
    simp only
    split
    · have : "verbose" ∉ verboseNames := by decide
      simp [Dict.pop, this, clean]
    · simp [Dict.pop, clean]

/-- The verbosity flags. -/
theorem compile_flag (args pars : Dict) (h : compileArgs args = .ok pars) (x : String) (hx : x ∈ verboseNames) :
    pars x = clean (if ((args "verbose").map truthy).getD false && !args.has x then some (.num 1) else args x) := by
  obtain ⟨p1, p2, h1, _, h3, rfl⟩ := compile_steps args pars h
  have hne : x ≠ "non linear" ∧ x ≠ "Omega_Lambda" ∧ x ≠ "N_ncdm" ∧ x ≠ "m_ncdm" ∧ x ≠ "N_ur" ∧ x ≠ "verbose" ∧
      x ≠ "output" ∧ x ≠ "extra metric transfer functions" ∧ (∀ pa ∈ aliases, x ≠ pa.1 ∧ x ≠ pa.2) ∧
      ∀ pa ∈ lateAliases, x ≠ pa.1 ∧ x ≠ pa.2 := by
    revert x
    decide
  obtain ⟨n1, n2, n3, n4, n5, n6, n7, n8, n9, n10⟩ := hne
  rw [dropNone_get, setNonlinear_frame _ _ n1, setAliases_frame _ _ _ _ n10]
  have e2 : p2 x = setNur args p1 x := by
    rcases setFluid_spec _ _ _ h3 with ⟨_, _, rfl⟩ | ⟨_, _, _, hf⟩
    · rfl
    · exact hf _ n2
  have e1 : p1 x = setVerbose args (setAliases args aliases (startPars.update args)) x := by
    rcases setNcdm_spec _ _ _ h1 with ⟨_, rfl⟩ | ⟨_, _, _, _, _, _, _, _, _, _, hf⟩
    · rfl
    · exact hf _ n3 n4 n5
  rw [e2, setNur_frame _ _ _ n5, e1]
  have e0 : setAliases args aliases (startPars.update args) x = args x := by
    rw [setAliases_frame _ _ _ _ n9, start_get _ _ n7 n8]
  unfold setVerbose
  cases hv : args "verbose" with
  | none => simp [e0]
  | some v =>
    simp only [Option.map_some, Option.getD_some]
    by_cases ht : truthy v = true
    · simp [ht, Dict.pop, Dict.has, n6, e0, hx]
    · simp [ht, Dict.pop, Dict.has, n6, e0, hx]

/-- The dictionary at `x` before the late steps. -/
theorem compile_nonlinear (args pars : Dict) (h : compileArgs args = .ok pars) :
    pars "non linear" = if (((args "non linear").orElse fun _ => args "nonlinear").map truthy).getD false
      then some (.str "halofit") else none := by
  obtain ⟨p1, p2, h1, _, h3, rfl⟩ := compile_steps args pars h
  have e2 : p2 "non linear" = setNur args p1 "non linear" := by
    rcases setFluid_spec _ _ _ h3 with ⟨_, _, rfl⟩ | ⟨_, _, _, hf⟩
    · rfl
    · exact hf _ (by decide)
  have e1 : p1 "non linear" = setVerbose args (setAliases args aliases (startPars.update args)) "non linear" := by
    rcases setNcdm_spec _ _ _ h1 with ⟨_, rfl⟩ | ⟨_, _, _, _, _, _, _, _, _, _, hf⟩
    · rfl
    · exact hf _ (by decide) (by decide) (by decide)
  rw [setNur_frame _ _ _ (by decide), e1, setVerbose_frame _ _ _ (by decide) (by decide),
    setAliases_frame _ _ _ _ (by decide), start_get _ _ (by decide) (by decide)] at e2
  have e3 : setAliases args lateAliases p2 "non linear" =
      (args "non linear").orElse fun _ => args "nonlinear" := by
    simp only [setAliases, lateAliases, List.foldl_cons, List.foldl_nil, setAlias_get, String.reduceEq, if_true,
      if_false, ite_self, e2]
    split
    · rfl
    · rename_i hn
      simp only [Option.isSome_iff_ne_none, ne_eq, not_not] at hn
      rw [hn]; simp
  rw [dropNone_get]
  unfold setNonlinear
  rw [e3]
  split <;> simp [Dict.set, Dict.pop, clean]

/-- The value of `Omega_Lambda` given by one of its four names. -/
def lambdaOf (args : Dict) : Option Val :=
  (args "Omega_Lambda").orElse fun _ => (args "Omega0_Lambda").orElse fun _ =>
    (args "Omega0_lambda").orElse fun _ => args "Omega_lambda"

theorem compile_lambda (args pars : Dict) (h : compileArgs args = .ok pars) :
    (args "w0_fld" = none ∧ args "wa_fld" = none ∧ pars "Omega_Lambda" = clean (lambdaOf args)) ∨
    (((args "w0_fld").isSome ∨ (args "wa_fld").isSome) ∧ positive (lambdaOf args) = .ok false ∧
      pars "Omega_Lambda" = some (.num 0)) := by
  obtain ⟨p1, p2, h1, _, h3, rfl⟩ := compile_steps args pars h
  have e1 : p1 "Omega_Lambda" = setVerbose args (setAliases args aliases (startPars.update args)) "Omega_Lambda" := by
    rcases setNcdm_spec _ _ _ h1 with ⟨_, rfl⟩ | ⟨_, _, _, _, _, _, _, _, _, _, hf⟩
    · rfl
    · exact hf _ (by decide) (by decide) (by decide)
  have e0 : setAliases args aliases (startPars.update args) "Omega_Lambda" = lambdaOf args := by
    simp only [setAliases, aliases, List.foldl_cons, List.foldl_nil, setAlias_get, String.reduceEq, if_true,
      if_false, ite_self]
    rw [start_get _ _ (by decide) (by decide)]
    unfold lambdaOf
    cases args "Omega_Lambda" <;> cases args "Omega0_Lambda" <;> cases args "Omega0_lambda" <;>
      cases args "Omega_lambda" <;> rfl
  rw [setVerbose_frame _ _ _ (by decide) (by decide), e0] at e1
  have e2 : setNur args p1 "Omega_Lambda" = lambdaOf args := by
    rw [setNur_frame _ _ _ (by decide), e1]
  rw [dropNone_get, setNonlinear_frame _ _ (by decide), setAliases_frame _ _ _ _ (by decide)]
  rcases setFluid_spec _ _ _ h3 with ⟨w1, w2, rfl⟩ | ⟨hw, hp, hl, _⟩
  · left
    exact ⟨w1, w2, by rw [e2]⟩
  · right
    rw [e2] at hp
    exact ⟨hw, hp, by rw [hl]; rfl⟩

theorem compile_ncdm (args pars : Dict) (h : compileArgs args = .ok pars) :
    (args "m_ncdm" = none ∧ pars "m_ncdm" = none ∧ pars "N_ncdm" = clean (args "N_ncdm") ∧
      pars "N_ur" = clean (args "N_ur")) ∨
    ∃ v m, args "m_ncdm" = some v ∧ massList v = .ok m ∧ massZero m = false ∧
      pars "m_ncdm" = (if massCount m > 0 then some m else none) ∧ pars "N_ncdm" = some (.num (massCount m)) ∧
      (args "N_ur").isSome ∧
      (args "N_ur" = some .none → ∃ n, nurTable[massCount m]? = some n ∧ pars "N_ur" = some (.num n)) ∧
      (args "N_ur" ≠ some .none → pars "N_ur" = args "N_ur") := by
  obtain ⟨p1, p2, h1, _, h3, rfl⟩ := compile_steps args pars h
  have hback : ∀ x, x = "m_ncdm" ∨ x = "N_ncdm" ∨ x = "N_ur" →
      dropNone (setNonlinear (setAliases args lateAliases p2)) x = clean (setNur args p1 x) := by
    intro x hx
    have hne : x ≠ "non linear" ∧ x ≠ "Omega_Lambda" ∧ ∀ pa ∈ lateAliases, x ≠ pa.1 ∧ x ≠ pa.2 := by
      rcases hx with rfl | rfl | rfl <;> decide
    rw [dropNone_get, setNonlinear_frame _ _ hne.1, setAliases_frame _ _ _ _ hne.2.2]
    rcases setFluid_spec _ _ _ h3 with ⟨_, _, rfl⟩ | ⟨_, _, _, hf⟩
    · rfl
    · rw [hf x hne.2.1]
  have hfront : ∀ x, x = "m_ncdm" ∨ x = "N_ncdm" ∨ x = "N_ur" →
      setVerbose args (setAliases args aliases (startPars.update args)) x = args x := by
    intro x hx
    have hne : x ≠ "verbose" ∧ x ∉ verboseNames ∧ x ≠ "output" ∧ x ≠ "extra metric transfer functions" ∧
        ∀ pa ∈ aliases, x ≠ pa.1 ∧ x ≠ pa.2 := by
      rcases hx with rfl | rfl | rfl <;> decide
    rw [setVerbose_frame _ _ _ hne.1 hne.2.1, setAliases_frame _ _ _ _ hne.2.2.2.2,
      start_get _ _ hne.2.2.1 hne.2.2.2.1]
  rw [hback _ (by simp), hback _ (by simp), hback _ (by simp), setNur_frame _ _ "m_ncdm" (by decide),
    setNur_frame _ _ "N_ncdm" (by decide)]
  have hnur : ∀ v, args "N_ur" = some v → v ≠ .none → setNur args p1 "N_ur" = some v := by
    intro v hv hn
    unfold setNur
    rw [hv]
    cases v <;> first | exact absurd rfl hn | simp [Dict.set]
  have hnur0 : args "N_ur" = none ∨ args "N_ur" = some .none → setNur args p1 "N_ur" = p1 "N_ur" := by
    rintro (hv | hv) <;> (unfold setNur; rw [hv])
  rcases setNcdm_spec _ _ _ h1 with ⟨hm, rfl⟩ | ⟨v, m, hm, hl, hz, hs, hn, hmm, ht, ht', hf⟩
  · left
    refine ⟨hm, by rw [hfront _ (by simp), hm]; rfl, by rw [hfront _ (by simp)], ?_⟩
    cases hu : args "N_ur" with
    | none => rw [hnur0 (.inl hu), hfront _ (by simp), hu]
    | some w =>
      by_cases hw : w = .none
      · subst hw; rw [hnur0 (.inr hu), hfront _ (by simp), hu]
      · rw [hnur w hu hw]
  · right
    refine ⟨v, m, hm, hl, hz, ?_, by rw [hn]; rfl, hs, ?_, ?_⟩
    · rw [hmm]
      have hm' : m ≠ .none := by
        cases v <;> simp only [massList, Except.ok.injEq] at hl <;> rw [← hl] <;> simp
      split
      · simp [clean, hm']
      · rfl
    · intro hu
      obtain ⟨n, h5, h6⟩ := ht hu
      exact ⟨n, h5, by rw [hnur0 (.inr hu), h6]; rfl⟩
    · intro hu
      cases hu' : args "N_ur" with
      | none => rw [hu'] at hs; simp at hs
      | some w =>
        rw [hu'] at hu
        have hw : w ≠ .none := fun hc => hu (by rw [hc])
        rw [hnur w hu' hw]
        simp [clean, hw]

end NBK.Cosmo
