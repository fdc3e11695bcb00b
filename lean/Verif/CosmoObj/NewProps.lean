import Verif.CosmoObj.Props
import Verif.Cosmo.Props

set_option linter.unusedSimpArgs false

/-! Making `Cosmology` objects (C119): the constructor with positional arguments and with the old names, `from_dict`, `from_file`, `from_astropy`, copies. -/
namespace NBK.CosmoObj

open NBK.Cosmo (Dict Val clean)

theorem lift_ok {β : Type} (x : Except Cosmo.Err β) (b : β) : lift x = .ok b ↔ x = .ok b := by
  cases x <;> simp [lift]

theorem setattr_put {α : Type} (L : Lib α) (c c' : Obj α) (k : String) (v : V α) (h : setattr L c k v = .ok c') : c' = c.put k v := by
  unfold setattr at h
  split at h
  · cases h
  · split at h
    · cases h
    · exact (Except.ok.inj h).symm

/-- `__setstate__`: the engine has the parameters of the dictionary, which the object keeps. -/
theorem setState_spec {α : Type} (L : Lib α) (h : Heap) (c c' : Obj α) (r : Nat) (hs : setState L h c r = .ok c') :
    Sound L c' (h.get r) ∧ parsOf c' = .ok r ∧ L.make .engine (h.get r) = .ok () ∧
    c'.inst "delegates" = some (.delegates [(.engine, h.get r)]) ∧
    ∀ n, n ≠ "engine" → n ≠ "delegates" → n ≠ "pars" → c'.inst n = c.inst n := by
  unfold setState at hs
  cases h0 : L.make .engine (h.get r) with
  | error e => rw [h0] at hs; cases hs
  | ok u =>
    rw [h0] at hs
    simp only [bind, Except.bind] at hs
    cases h1 : setattr L c "engine" (.engine (h.get r)) with
    | error e => rw [h1] at hs; cases hs
    | ok c1 =>
      rw [h1] at hs
      simp only at hs
      cases h2 : setattr L c1 "delegates" (.delegates [(.engine, h.get r)]) with
      | error e => rw [h2] at hs; cases hs
      | ok c2 =>
        rw [h2] at hs
        simp only at hs
        have e1 := setattr_put L _ _ _ _ h1
        have e2 := setattr_put L _ _ _ _ h2
        have e3 := setattr_put L _ _ _ _ hs
        subst e1; subst e2; subst e3
        refine ⟨⟨by simp [Obj.put], [(.engine, h.get r)], by simp [Obj.put], by simp, by simp, ?_⟩, by simp [parsOf, Obj.put], rfl, by simp [Obj.put], ?_⟩
        · intro q hq
          simp at hq
          subst hq
          exact ⟨rfl, by simp [build]⟩
        · intro n n1 n2 n3
          simp [Obj.put, n1, n2, n3]

/-- The names that `__init__` and `__setstate__` set. -/
def reserved : List String := ["_user_args", "_user_kwargs", "engine", "delegates", "pars"]

theorem setattr_free {α : Type} (L : Lib α) (c : Obj α) (k : String) (v : V α) (h : ∀ i, L.has i k = false) (hk : k ∉ properties) :
    setattr L c k v = .ok (c.put k v) := by
  unfold setattr
  rw [if_neg (by simp [h]), if_neg hk]

theorem setState_total {α : Type} (L : Lib α) (h : Heap) (c : Obj α) (r : Nat) (hL : ∀ i, ∀ k ∈ reserved, L.has i k = false)
    (hm : L.make .engine (h.get r) = .ok ()) : ∃ c', setState L h c r = .ok c' := by
  unfold setState
  simp only [bind, Except.bind, hm]
  rw [setattr_free L c _ _ (fun i => hL i _ (by decide)) (by decide)]
  simp only
  rw [setattr_free L _ _ _ (fun i => hL i _ (by decide)) (by decide)]
  simp only
  rw [setattr_free L _ _ _ (fun i => hL i _ (by decide)) (by decide)]
  exact ⟨_, rfl⟩

/-- C119, constructor: the object has an engine of the compiled parameters and a dictionary of its own that holds them; the
arguments are remembered; no other dictionary changed.  It exists whenever CLASS accepts the parameters. -/
theorem new_spec {α : Type} (L : Lib α) (ok0 : Cosmo.Astropy → ℚ) (h : Heap) (args : List Val) (kw : List (String × Val)) :
    (∀ c h', new L ok0 h args kw = .ok (c, h') → ∃ p, compile ok0 args kw = .ok p ∧ Sound L c p ∧ parsOf c = .ok h.next ∧ h'.get h.next = p ∧
      (∀ r, r ≠ h.next → h'.get r = h.get r) ∧ c.inst "_user_args" = some (.args args) ∧ c.inst "_user_kwargs" = some (.kwargs kw) ∧
      ∀ n, n ∉ reserved → c.inst n = none) ∧
    (∀ p, (∀ i, ∀ k ∈ reserved, L.has i k = false) → compile ok0 args kw = .ok p → L.make .engine p = .ok () → ∃ c h', new L ok0 h args kw = .ok (c, h')) := by
  constructor
  · intro c h' hn
    unfold new at hn
    simp only [bind, Except.bind] at hn
    cases h1 : setattr L bare "_user_args" (.args args) with
    | error e => rw [h1] at hn; cases hn
    | ok c1 =>
      rw [h1] at hn
      simp only at hn
      cases h2 : setattr L c1 "_user_kwargs" (.kwargs kw) with
      | error e => rw [h2] at hn; cases hn
      | ok c2 =>
        rw [h2] at hn
        simp only at hn
        cases hp : compile ok0 args kw with
        | error e => rw [hp] at hn; cases hn
        | ok p =>
          rw [hp] at hn
          simp only at hn
          cases hs : setState L (h.alloc p).2 c2 (h.alloc p).1 with
          | error e => rw [hs] at hn; cases hn
          | ok c3 =>
            rw [hs] at hn
            simp only [pure, Except.pure, Except.ok.injEq, Prod.mk.injEq] at hn
            obtain ⟨rfl, rfl⟩ := hn
            obtain ⟨s1, s2, _, _, s4⟩ := setState_spec L _ _ _ _ hs
            have e1 := setattr_put L _ _ _ _ h1
            have e2 := setattr_put L _ _ _ _ h2
            subst e1; subst e2
            have hg : (h.alloc p).2.get (h.alloc p).1 = p := by simp [Heap.alloc]
            rw [hg] at s1
            refine ⟨p, rfl, s1, s2, hg, ?_, ?_, ?_, ?_⟩
            · intro r hr; simp [Heap.alloc, hr]
            · rw [s4 _ (by decide) (by decide) (by decide)]; simp [Obj.put]
            · rw [s4 _ (by decide) (by decide) (by decide)]; simp [Obj.put]
            · intro n hn
              simp only [reserved, List.mem_cons, List.not_mem_nil, or_false, not_or] at hn
              obtain ⟨n1, n2, n3, n4, n5⟩ := hn
              rw [s4 n n3 n4 n5]
              simp [Obj.put, bare, n1, n2]
  · intro p hL hp hm
    unfold new
    simp only [bind, Except.bind]
    rw [setattr_free L _ _ _ (fun i => hL i _ (by decide)) (by decide)]
    simp only
    rw [setattr_free L _ _ _ (fun i => hL i _ (by decide)) (by decide)]
    simp only [hp]
    obtain ⟨c', hc⟩ := setState_total L (h.alloc p).2 ((bare.put "_user_args" (.args args)).put "_user_kwargs" (.kwargs kw)) (h.alloc p).1 hL
      (by simpa [Heap.alloc] using hm)
    rw [hc]
    exact ⟨_, _, rfl⟩

/-- A value of a keyword list. -/
theorem lit_mem (kw : List (String × Val)) (k : String) (h : (Dict.lit kw k).isSome) : k ∈ kw.map Prod.fst := by
  unfold Dict.lit at h
  induction kw with
  | nil => simp at h
  | cons q kw ih =>
    rw [List.lookup_cons] at h
    by_cases hk : k = q.1
    · simp [hk]
    · have : (k == q.1) = false := by simpa using hk
      rw [this] at h
      exact List.mem_cons_of_mem _ (ih h)

theorem lit_none (kw : List (String × Val)) (k : String) (h : k ∉ kw.map Prod.fst) : Dict.lit kw k = none := by
  cases hk : Dict.lit kw k with
  | none => rfl
  | some v => exact absurd (lit_mem kw k (by rw [hk]; rfl)) h

theorem lit_append (a b : List (String × Val)) (k : String) : Dict.lit (a ++ b) k = (Dict.lit a k).or (Dict.lit b k) := by
  unfold Dict.lit
  induction a with
  | nil => simp
  | cons q a ih =>
    rw [List.cons_append, List.lookup_cons, List.lookup_cons]
    by_cases hk : (k == q.1) = true
    · simp [hk]
    · have : (k == q.1) = false := by simpa using hk
      rw [this]
      exact ih

/-- No old names. -/
def Modern (kw : List (String × Val)) : Prop := ∀ q ∈ kw, q.1 ∉ Cosmo.oldNames

theorem deprecated_modern (ok0 : Cosmo.Astropy → ℚ) (args : List Val) (kw : List (String × Val)) (h : Modern kw) : deprecated ok0 args kw = .ok none := by
  unfold deprecated
  rw [if_pos]
  rw [List.all_eq_true]
  intro q hq
  simpa using h q hq

/-- The parameters for a call without old names. -/
theorem compile_modern (ok0 : Cosmo.Astropy → ℚ) (args : List Val) (kw : List (String × Val)) (h : Modern kw) (hl : args.length ≤ params.length)
    (hd : ∀ q ∈ kw, q.1 ∉ params.take args.length) :
    compile ok0 args kw = (lift (Cosmo.checkArgs (Dict.lit kw))).bind fun _ => lift (Cosmo.compileArgs ((Cosmo.defaults.update (bound args)).update (Dict.lit kw))) := by
  unfold compile
  simp only [bind, Except.bind]
  rw [if_neg (by omega)]
  rw [if_neg (by rw [List.any_eq_true]; rintro ⟨q, hq, h'⟩; exact hd q hq (by simpa using h'))]
  simp only [deprecated_modern ok0 args kw h]

/-- C119: keyword arguments only, without old names: the parameters of `Verif.Cosmo` (C64). -/
theorem compile_keywords (ok0 : Cosmo.Astropy → ℚ) (kw : List (String × Val)) (h : Modern kw) : compile ok0 [] kw = lift (Cosmo.init (Dict.lit kw)) := by
  rw [compile_modern ok0 [] kw h (by simp [params]) (by simp)]
  have ho : (Cosmo.oldNames.any (Dict.lit kw).has) = false := by
    rw [List.any_eq_false]
    intro x hx hh
    obtain ⟨q, hq, rfl⟩ := List.mem_map.mp (lit_mem kw x hh)
    exact h q hq hx
  have hb : Cosmo.defaults.update (bound []) = Cosmo.defaults := by
    funext x
    simp [Dict.update, bound, Dict.lit]
  rw [hb]
  unfold Cosmo.init
  simp only [bind, Except.bind, ho, Bool.false_eq_true, if_false, pure, Except.pure]
  cases Cosmo.checkArgs (Dict.lit kw) <;> rfl

/-- C119, positional arguments: they are the same as keywords, if the keywords do not conflict with them. -/
theorem positional_partial (ok0 : Cosmo.Astropy → ℚ) (args : List Val) (kw : List (String × Val)) (h : Modern kw) (hl : args.length ≤ params.length)
    (hd : ∀ q ∈ kw, q.1 ∉ params.take args.length) (hc : Cosmo.checkArgs (Dict.lit (params.zip args ++ kw)) = .ok ()) :
    compile ok0 args kw = compile ok0 [] (params.zip args ++ kw) := by
  have hmem : ∀ q ∈ params.zip args, q.1 ∈ params.take args.length := by
    intro q hq
    obtain ⟨i, hi, rfl⟩ := List.getElem_of_mem hq
    rw [List.length_zip] at hi
    rw [List.getElem_zip, List.mem_take_iff_getElem]
    exact ⟨i, by omega, rfl⟩
  have hpar : ∀ k ∈ params, k ∉ Cosmo.oldNames := by decide
  have hmod : Modern (params.zip args ++ kw) := by
    intro q hq
    rcases List.mem_append.mp hq with hq | hq
    · exact hpar _ (List.mem_of_mem_take (hmem q hq))
    · exact h q hq
  rw [compile_modern ok0 args kw h hl hd, compile_keywords ok0 _ hmod]
  have hck : Cosmo.checkArgs (Dict.lit kw) = .ok () := by
    unfold Cosmo.checkArgs at hc ⊢
    split at hc
    · cases hc
    · rename_i hno
      rw [if_neg]
      intro hy
      apply hno
      rw [List.any_eq_true] at hy ⊢
      obtain ⟨x, hx, hy⟩ := hy
      refine ⟨x, hx, ?_⟩
      rw [Bool.and_eq_true, List.any_eq_true] at hy ⊢
      obtain ⟨h1, y, h2, h3⟩ := hy
      have up : ∀ z, (Dict.lit kw).has z = true → (Dict.lit (params.zip args ++ kw)).has z = true := by
        intro z hz
        unfold Dict.has at hz ⊢
        rw [lit_append, Option.isSome_or, hz, Bool.or_true]
      rw [Bool.and_eq_true] at h3
      exact ⟨up x h1, y, h2, by rw [Bool.and_eq_true]; exact ⟨h3.1, up y h3.2⟩⟩
  rw [hck]
  have ho : (Cosmo.oldNames.any (Dict.lit (params.zip args ++ kw)).has) = false := by
    rw [List.any_eq_false]
    intro x hx hh
    obtain ⟨q, hq, rfl⟩ := List.mem_map.mp (lit_mem _ x hh)
    exact hmod q hq hx
  have hb : (Cosmo.defaults.update (bound args)).update (Dict.lit kw) = Cosmo.defaults.update (Dict.lit (params.zip args ++ kw)) := by
    funext x
    simp only [Dict.update, bound]
    rw [lit_append]
    cases h1 : Dict.lit kw x with
    | none =>
      simp only [Option.isSome_none, Bool.false_eq_true, if_false, Option.or_none]
      exact if_congr Iff.rfl rfl rfl
    | some v =>
      have : Dict.lit (params.zip args) x = none := by
        apply lit_none
        intro hx
        obtain ⟨q, hq, rfl⟩ := List.mem_map.mp hx
        obtain ⟨q', hq', e⟩ := List.mem_map.mp (lit_mem kw q.1 (by rw [h1]; rfl))
        exact hd q' hq' (e ▸ hmem q hq)
      simp [this]
  rw [hb]
  unfold Cosmo.init
  simp only [bind, Except.bind, ho, Bool.false_eq_true, if_false, pure, Except.pure, hc]
  rfl

/-- The dictionary of a run, and its exception. -/
def okD (r : Except Err Dict) : Dict := r.toOption.getD .empty

def errD : Except Err Dict → Option Err
  | .ok _ => none
  | .error e => some e

theorem run_ok {r : Except Err Dict} (h : errD r = none) : r = .ok (okD r) := by
  cases r with
  | ok d => rfl
  | error e => cases h

theorem run_err {r : Except Err Dict} {e : Err} (h : errD r = some e) : r = .error e := by
  cases r with
  | ok d => cases h
  | error e' => rw [Option.some.inj h]

/-- C119, against "conflicting parameters are refused": a positional argument is not compared with the keywords. The baryon
density given third is ignored if `Omega_b` is given too; with keywords only that is a ValueError. -/
theorem positional_conflict (ok0 : Cosmo.Astropy → ℚ) :
    (∃ p, compile ok0 [.num (7/10), .num (27/10), .num (5/100)] [("Omega_b", .num (6/100))] = .ok p ∧ p "Omega_b" = some (.num (6/100)) ∧ p "Omega0_b" = none) ∧
    compile ok0 [] [("h", .num (7/10)), ("T0_cmb", .num (27/10)), ("Omega0_b", .num (5/100)), ("Omega_b", .num (6/100))] = .error .valueError := by
  constructor
  · rw [compile_modern ok0 _ _ (by intro q hq; simp at hq; subst hq; decide) (by decide) (by intro q hq; simp at hq; subst hq; decide)]
    refine ⟨_, run_ok ?_, ?_, ?_⟩ <;> decide +kernel
  · rw [compile_keywords ok0 _ (by intro q hq; simp at hq; rcases hq with rfl | rfl | rfl | rfl <;> decide)]
    exact run_err (by decide +kernel)

/-- C119: too many positional arguments, or a parameter given twice, is a TypeError; an old name together with a new one or
with positional arguments a ValueError. -/
theorem refused (ok0 : Cosmo.Astropy → ℚ) (args : List Val) (kw : List (String × Val)) :
    (12 < args.length → compile ok0 args kw = .error .typeError) ∧
    (args.length ≤ 12 → (∃ q ∈ kw, q.1 ∈ params.take args.length) → compile ok0 args kw = .error .typeError) ∧
    (args.length ≤ 12 → (∀ q ∈ kw, q.1 ∉ params.take args.length) → (∃ q ∈ kw, q.1 ∈ Cosmo.oldNames) → ((∃ q ∈ kw, q.1 ∉ Cosmo.oldNames) ∨ args ≠ []) →
      compile ok0 args kw = .error .valueError) := by
  have hlen : params.length = 12 := rfl
  unfold compile
  simp only [bind, Except.bind, hlen]
  refine ⟨?_, ?_, ?_⟩
  · intro h; rw [if_pos h]; rfl
  · rintro h ⟨q, hq, hm⟩
    rw [if_neg (by omega)]
    rw [if_pos]
    · rfl
    · rw [List.any_eq_true]; exact ⟨q, hq, by simpa using hm⟩
  · intro h hn ho hx
    rw [if_neg (by omega)]
    rw [if_neg (by rw [List.any_eq_true]; rintro ⟨q, hq, h'⟩; exact hn q hq (by simpa using h'))]
    have : deprecated ok0 args kw = .error .valueError := by
      unfold deprecated
      rw [if_neg, if_pos]
      · rcases hx with ⟨q, hq, h'⟩ | h'
        · left; rw [List.any_eq_true]; exact ⟨q, hq, by simpa using h'⟩
        · right; exact h'
      · obtain ⟨q, hq, h'⟩ := ho
        rw [List.all_eq_true]
        intro hall
        have := hall q hq
        simp at this
        exact this h'
    rw [this]

/-- C119, the order of the positional arguments. -/
theorem positional_order (ok0 : Cosmo.Astropy → ℚ) (args : List Val) (hl : args.length ≤ 12)
    (hc : Cosmo.checkArgs (Dict.lit (["h", "T0_cmb", "Omega0_b", "Omega0_cdm", "N_ur", "m_ncdm", "P_k_max", "P_z_max", "gauge", "n_s", "nonlinear", "verbose"].zip args)) = .ok ()) :
    compile ok0 args [] = compile ok0 [] (["h", "T0_cmb", "Omega0_b", "Omega0_cdm", "N_ur", "m_ncdm", "P_k_max", "P_z_max", "gauge", "n_s", "nonlinear", "verbose"].zip args) := by
  have := positional_partial ok0 args [] (by intro q hq; cases hq) hl (by intro q hq; cases hq) (by rw [List.append_nil]; exact hc)
  rwa [List.append_nil] at this

end NBK.CosmoObj
