import Verif.Populate.Model
import Mathlib.Data.Rat.Defs
import Mathlib.Algebra.Order.Ring.Rat
import Mathlib.Data.List.Induction

/-! # Populating halos -/

set_option linter.unusedSimpArgs false

namespace NBK.Populate

variable {κ V τ H G S K : Type}

theorem update_append [DecidableEq κ] (d : Dict κ V) (ps qs : List (κ × V)) : Dict.update d (ps ++ qs) = Dict.update (Dict.update d ps) qs := by
  simp [Dict.update, List.foldl_append]

theorem update_isSome [DecidableEq κ] : ∀ (ps : List (κ × V)) (d : Dict κ V), (∀ p ∈ ps, (d p.1).isSome = true) →
    ∀ k, (Dict.update d ps k).isSome = (d k).isSome
  | [], _, _, _ => rfl
  | p :: ps, d, h, k => by
    have e : Dict.update d (p :: ps) = Dict.update (fun k => if k = p.1 then some p.2 else d k) ps := rfl
    have hd : ∀ k, ((fun k => if k = p.1 then some p.2 else d k) k : Option V).isSome = (d k).isSome := by
      intro k
      by_cases hk : k = p.1
      · subst hk
        simp only [if_true, Option.isSome_some, h p List.mem_cons_self]
      · simp only [if_neg hk]
    rw [e, update_isSome ps _ (fun q hq => by rw [hd]; exact h q (List.mem_cons_of_mem _ hq)), hd]

/-- The value of a parameter after an update: the last pair with that name, or the old value. -/
theorem update_spec [DecidableEq κ] (ps : List (κ × V)) (d : Dict κ V) (k : κ) :
    Dict.update d ps k = ((ps.reverse.find? fun p => p.1 = k).map Prod.snd).or (d k) := by
  induction ps using List.reverseRecOn with
  | nil => simp [Dict.update]
  | append_singleton ps p ih =>
    rw [update_append]
    simp only [List.reverse_append, List.reverse_cons, List.reverse_nil, List.nil_append, List.singleton_append, List.find?_cons]
    by_cases hk : p.1 = k
    · simp [Dict.update, hk]
    · have hk' : ¬ k = p.1 := fun h => hk h.symm
      simp only [hk, decide_false]
      rw [← ih]
      simp only [Dict.update, List.foldl_cons, List.foldl_nil, if_neg hk']

section
variable [DecidableEq κ] [LinearOrder τ] [Mul K]

/-- A parameter the model does not have is refused, and then neither the model nor the catalog has changed. -/
theorem invalid_iff (e : Env κ V τ H G S K) (attrs : Dict κ V) (old : Option (Cat κ V τ G S K)) (m : HModel κ V τ H) (seed : Option S)
    (halocat : Option (List (List H))) (ps : List (κ × V)) :
    (populateMock e attrs old m seed halocat ps).2.2 = .error .invalid ↔ ∃ p ∈ ps, m.params p.1 = none := by
  unfold populateMock
  by_cases h : ps.any (fun p => (m.params p.1).isNone) = true
  · rw [if_pos h]
    simp only [true_iff]
    obtain ⟨p, hp, hn⟩ := List.any_eq_true.1 h
    exact ⟨p, hp, Option.isNone_iff_eq_none.1 hn⟩
  · rw [if_neg h]
    constructor
    · intro h'
      simp only at h'
      split at h'
      · simp at h'
      · split at h' <;> simp at h'
    · rintro ⟨p, hp, hn⟩
      exact absurd (List.any_eq_true.2 ⟨p, hp, by simp [hn]⟩) h

theorem invalid_unchanged (e : Env κ V τ H G S K) (c : Cat κ V τ G S K) (m : HModel κ V τ H) (seed : Option S) (ps : List (κ × V))
    (h : ∃ p ∈ ps, m.params p.1 = none) : repopulate e c m seed ps = (m, some c, .error .invalid) := by
  obtain ⟨p, hp, hn⟩ := h
  unfold repopulate populateMock
  rw [if_pos (List.any_eq_true.2 ⟨p, hp, by simp [hn]⟩)]

/-- The rows that halotools gives on every rank for a seed, with the types as integers. -/
def specRows (e : Env κ V τ H G S K) (m : HModel κ V τ H) (halos : List (List H)) (s : S) (ps : List (κ × V)) : List (List (Nat × G)) :=
  rowsOf e m.types (Dict.update m.params ps) halos fun _ => s

/-- The first population with a given seed: a function of the parameters, the halos and the seed, whatever the state of the random generators; it
fails exactly when there is no galaxy. -/
theorem populate_spec (e : Env κ V τ H G S K) (attrs : Dict κ V) (halos : List (List H)) (m : HModel κ V τ H) (hm : m.mock = none) (s : S)
    (ps : List (κ × V)) (hps : ∀ p ∈ ps, (m.params p.1).isSome = true) :
    populate e attrs halos m (some s) ps =
      if (specRows e m halos s ps).flatten = [] then (⟨Dict.update m.params ps, m.types, some halos⟩, none, .error .empty)
      else (⟨Dict.update m.params ps, m.types, some halos⟩,
        some { rows := specRows e m halos s ps, overrides := ["Position", "Velocity", "VelocityOffset"],
               offset := some ((specRows e m halos s ps).map fun l => l.map fun g => e.vel g.2 * e.factor attrs),
               attrs := fun k => (Dict.update m.params ps k).or (attrs k), seeds := some (List.replicate e.size s),
               types := typeAttr m.types, fsat := fsatOf e.sat m.types (specRows e m halos s ps) }, .ok ()) := by
  have hv : ¬ (ps.any fun p => (m.params p.1).isNone) = true := by
    intro h
    obtain ⟨p, hp, hn⟩ := List.any_eq_true.1 h
    have := hps p hp
    rw [Option.isNone_iff_eq_none] at hn
    rw [hn] at this
    cases this
  unfold populate populateMock
  rw [if_neg hv]
  simp only [halosUsed, hm, Option.getD_some]
  have hsr : rowsOf e m.types (Dict.update m.params ps) halos (fun _ => s) = specRows e m halos s ps := rfl
  rw [hsr]
  by_cases h0 : (specRows e m halos s ps).flatten = []
  · simp only [h0, List.length_nil, if_true, Option.map_none]
  · have h0' : ¬ (specRows e m halos s ps).flatten.length = 0 := by
      rwa [List.length_eq_zero_iff]
    rw [if_neg h0', if_neg h0]
    have ha : Dict.merge (Dict.merge (fun _ => none) attrs) (Dict.update m.params ps) = fun k => (Dict.update m.params ps k).or (attrs k) := by
      funext k
      simp only [Dict.merge]
      cases Dict.update m.params ps k <;> cases attrs k <;> rfl
    have hr : (List.range e.size).map (fun _ => s) = List.replicate e.size s := by
      rw [List.map_const', List.length_range]
    rw [ha, hr]
    cases fsatOf e.sat m.types (specRows e m halos s ps) <;> rfl

/-- A history of calls of `repopulate`, each with its seed and its parameters; a call that fails leaves the state it left. -/
def run (e : Env κ V τ H G S K) : HModel κ V τ H × Cat κ V τ G S K → List (Option S × List (κ × V)) → HModel κ V τ H × Cat κ V τ G S K
  | s, [] => s
  | s, x :: l => run e ((repopulate e s.2 s.1 x.1 x.2).1, (repopulate e s.2 s.1 x.1 x.2).2.1.getD s.2) l

/-- The parameters of the calls that were not refused. -/
def accepted (d : Dict κ V) (steps : List (Option S × List (κ × V))) : List (κ × V) :=
  (steps.filter fun x => x.2.all fun p => (d p.1).isSome).flatMap Prod.snd

/-- What stays true along a history. -/
structure Inv (e : Env κ V τ H G S K) (attrs : Dict κ V) (halos : List (List H)) (m0 : HModel κ V τ H) (acc : List (κ × V))
    (s : HModel κ V τ H × Cat κ V τ G S K) : Prop where
  params : s.1.params = Dict.update m0.params acc
  dom : ∀ p ∈ acc, (m0.params p.1).isSome = true
  mock : s.1.mock = some halos
  types : s.1.types = m0.types
  attrs : ∀ k, m0.params k = none → s.2.attrs k = attrs k
  fsat : typeAttr m0.types e.sat = none → s.2.fsat = none

omit [LinearOrder τ] [Mul K] in
theorem update_none (m0 : HModel κ V τ H) (acc : List (κ × V)) (h : ∀ p ∈ acc, (m0.params p.1).isSome = true) (k : κ) :
    (Dict.update m0.params acc k).isSome = (m0.params k).isSome := update_isSome acc m0.params h k

theorem inv_step (e : Env κ V τ H G S K) (attrs : Dict κ V) (halos : List (List H)) (m0 : HModel κ V τ H) (acc : List (κ × V))
    (s : HModel κ V τ H × Cat κ V τ G S K) (hs : Inv e attrs halos m0 acc s) (seed : Option S) (ps : List (κ × V)) :
    Inv e attrs halos m0 (acc ++ if ps.all (fun p => (m0.params p.1).isSome) then ps else [])
      ((repopulate e s.2 s.1 seed ps).1, (repopulate e s.2 s.1 seed ps).2.1.getD s.2) := by
  by_cases hp : ps.all (fun p => (m0.params p.1).isSome) = true
  · rw [if_pos hp]
    have hp' : ∀ p ∈ ps, (m0.params p.1).isSome = true := List.all_eq_true.1 hp
    have hv : ¬ (ps.any fun p => (s.1.params p.1).isNone) = true := by
      intro h
      obtain ⟨p, hpm, hn⟩ := List.any_eq_true.1 h
      rw [hs.params] at hn
      have h1 := update_none m0 acc hs.dom p.1
      rw [hp' p hpm] at h1
      rw [Option.isNone_iff_eq_none] at hn
      rw [hn] at h1
      cases h1
    have hdom : ∀ p ∈ acc ++ ps, (m0.params p.1).isSome = true := by
      intro p h
      rcases List.mem_append.1 h with h | h
      · exact hs.dom p h
      · exact hp' p h
    unfold repopulate populateMock
    rw [if_neg hv]
    simp only [halosUsed, hs.mock, Option.map_some]
    split
    · exact ⟨by rw [update_append, ← hs.params], hdom, rfl, hs.types, hs.attrs, hs.fsat⟩
    · refine ⟨by rw [update_append, ← hs.params], hdom, rfl, hs.types, ?_, ?_⟩
      · intro k hk
        simp only [Option.getD_some, Dict.merge]
        have h1 := update_none m0 (acc ++ ps) hdom k
        rw [hk, update_append, ← hs.params] at h1
        have h2 : Dict.update s.1.params ps k = none := by
          cases h : Dict.update s.1.params ps k with
          | none => rfl
          | some v => rw [h] at h1; cases h1
        rw [h2]
        have h3 := hs.attrs k hk
        rw [← h3]
        cases s.2.attrs k <;> rfl
      · intro ht
        simp only [Option.getD_some, fsatOf, hs.types, ht, Option.map_none, Option.elim_none]
        exact hs.fsat ht
  · rw [if_neg hp, List.append_nil]
    have hex : ∃ p ∈ ps, s.1.params p.1 = none := by
      by_contra hne
      apply hp
      rw [List.all_eq_true]
      intro p hpm
      cases hc : m0.params p.1 with
      | some v => rfl
      | none =>
        refine absurd ⟨p, hpm, ?_⟩ hne
        have h1 := update_none m0 acc hs.dom p.1
        rw [hc] at h1
        rw [hs.params]
        cases h : Dict.update m0.params acc p.1 with
        | none => rfl
        | some v => rw [h] at h1; cases h1
    rw [invalid_unchanged e s.2 s.1 seed ps hex]
    exact hs

theorem inv_run (e : Env κ V τ H G S K) (attrs : Dict κ V) (halos : List (List H)) (m0 : HModel κ V τ H) :
    ∀ (steps : List (Option S × List (κ × V))) (acc : List (κ × V)) (s : HModel κ V τ H × Cat κ V τ G S K), Inv e attrs halos m0 acc s →
      Inv e attrs halos m0 (acc ++ accepted m0.params steps) (run e s steps)
  | [], acc, s, h => by simpa [accepted, run] using h
  | x :: l, acc, s, h => by
    have := inv_run e attrs halos m0 l _ _ (inv_step e attrs halos m0 acc s h x.1 x.2)
    rw [run]
    convert this using 1
    rw [List.append_assoc]
    congr 1
    unfold accepted
    by_cases hp : x.2.all (fun p => (m0.params p.1).isSome) = true
    · rw [List.filter_cons, if_pos hp, if_pos hp, List.flatMap_cons]
    · rw [List.filter_cons, if_neg hp, if_neg hp, List.nil_append]

/-- After any history of calls of `repopulate`, with failures of any kind among them, a call with a given seed gives the catalog, and the failure, that a
first population of the same halos would give with the seed of the last call and the parameters set so far. The model must not have been used before, and the
redshift is not one of its parameters. -/
theorem repopulate_history_partial (e : Env κ V τ H G S K) (attrs : Dict κ V) (halos : List (List H)) (m0 : HModel κ V τ H) (hm : m0.mock = none)
    (hf : ∀ d d' : Dict κ V, (∀ k, m0.params k = none → d k = d' k) → e.factor d = e.factor d')
    (s0 : Option S) (ps0 : List (κ × V)) (m1 : HModel κ V τ H) (c1 : Cat κ V τ G S K)
    (h1 : populate e attrs halos m0 s0 ps0 = (m1, some c1, .ok ())) (steps : List (Option S × List (κ × V))) (s : S) (ps : List (κ × V))
    (hps : ∀ p ∈ ps, (m0.params p.1).isSome = true) :
    let st := run e (m1, c1) steps
    let new := populate e attrs halos m0 (some s) (ps0 ++ accepted m0.params steps ++ ps)
    (repopulate e st.2 st.1 (some s) ps).1 = new.1 ∧ (repopulate e st.2 st.1 (some s) ps).2.2 = new.2.2 ∧
      (new.2.2 = .ok () → (repopulate e st.2 st.1 (some s) ps).2.1 = new.2.1) := by
  intro st new
  have hv0 : ¬ (ps0.any fun p => (m0.params p.1).isNone) = true := by
    intro h
    unfold populate populateMock at h1
    rw [if_pos h] at h1
    simp at h1
  have hdom0 : ∀ p ∈ ps0, (m0.params p.1).isSome = true := by
    intro p hp
    by_contra hc
    refine hv0 (List.any_eq_true.2 ⟨p, hp, ?_⟩)
    rw [Option.isNone_iff_eq_none]
    cases h : m0.params p.1 with
    | none => rfl
    | some v => rw [h] at hc; exact absurd rfl hc
  have hinv1 : Inv e attrs halos m0 ps0 (m1, c1) := by
    unfold populate populateMock at h1
    rw [if_neg hv0] at h1
    simp only [halosUsed, hm] at h1
    split at h1
    · simp at h1
    · simp only [Prod.mk.injEq, Option.some.injEq, and_true] at h1
      obtain ⟨e1, e2⟩ := h1
      subst e1 e2
      refine ⟨rfl, hdom0, rfl, rfl, ?_, ?_⟩
      · intro k hk
        simp only [Dict.merge]
        have h2 := update_none m0 ps0 hdom0 k
        rw [hk] at h2
        have h3 : Dict.update m0.params ps0 k = none := by
          cases h : Dict.update m0.params ps0 k with
          | none => rfl
          | some v => rw [h] at h2; cases h2
        rw [h3]
        cases attrs k <;> rfl
      · intro ht
        simp only [fsatOf, ht, Option.map_none, Option.elim_none]
  have hinv := inv_run e attrs halos m0 steps ps0 (m1, c1) hinv1
  have hdom : ∀ p ∈ ps0 ++ accepted m0.params steps ++ ps, (m0.params p.1).isSome = true := by
    intro p hp
    rcases List.mem_append.1 hp with h | h
    · exact hinv.dom p h
    · exact hps p h
  have hnew := populate_spec e attrs halos m0 hm s _ hdom
  have hv : ¬ (ps.any fun p => (st.1.params p.1).isNone) = true := by
    intro h
    obtain ⟨p, hpm, hn⟩ := List.any_eq_true.1 h
    rw [hinv.params] at hn
    have h1 := update_none m0 _ hinv.dom p.1
    rw [hps p hpm] at h1
    rw [Option.isNone_iff_eq_none] at hn
    rw [hn] at h1
    cases h1
  have hupd : Dict.update m0.params (ps0 ++ accepted m0.params steps ++ ps) = Dict.update st.1.params ps := by
    rw [update_append, ← hinv.params]
  have hty : st.1.types = m0.types := hinv.types
  have hmk : st.1.mock = some halos := hinv.mock
  have hold : repopulate e st.2 st.1 (some s) ps =
      if (specRows e m0 halos s (ps0 ++ accepted m0.params steps ++ ps)).flatten = [] then
        (⟨Dict.update st.1.params ps, m0.types, some halos⟩,
          some { st.2 with rows := specRows e m0 halos s (ps0 ++ accepted m0.params steps ++ ps), overrides := [], offset := none }, .error .empty)
      else (⟨Dict.update st.1.params ps, m0.types, some halos⟩, new.2.1, .ok ()) := by
    have hn2 : ¬ (specRows e m0 halos s (ps0 ++ accepted m0.params steps ++ ps)).flatten = [] → new.2.1 = some
        { rows := specRows e m0 halos s (ps0 ++ accepted m0.params steps ++ ps), overrides := ["Position", "Velocity", "VelocityOffset"],
          offset := some ((specRows e m0 halos s (ps0 ++ accepted m0.params steps ++ ps)).map fun l => l.map fun g => e.vel g.2 * e.factor attrs),
          attrs := fun k => (Dict.update m0.params (ps0 ++ accepted m0.params steps ++ ps) k).or (attrs k), seeds := some (List.replicate e.size s),
          types := typeAttr m0.types, fsat := fsatOf e.sat m0.types (specRows e m0 halos s (ps0 ++ accepted m0.params steps ++ ps)) } := by
      intro hne
      simp only [new]
      rw [hnew, if_neg hne]
    unfold repopulate populateMock
    rw [if_neg hv]
    simp only [halosUsed, hmk, Option.getD_some, hty, Option.map_some]
    have hsr : rowsOf e m0.types (Dict.update st.1.params ps) halos (fun _ => s) = specRows e m0 halos s (ps0 ++ accepted m0.params steps ++ ps) := by
      rw [specRows, hupd]
    rw [hsr]
    by_cases h0 : (specRows e m0 halos s (ps0 ++ accepted m0.params steps ++ ps)).flatten = []
    · have h0' : (specRows e m0 halos s (ps0 ++ accepted m0.params steps ++ ps)).flatten.length = 0 := by
        rw [h0]; rfl
      rw [if_pos h0', if_pos h0]
    · have h0' : ¬ (specRows e m0 halos s (ps0 ++ accepted m0.params steps ++ ps)).flatten.length = 0 := by
        rwa [List.length_eq_zero_iff]
      rw [if_neg h0', if_neg h0, hn2 h0]
      have hfac : e.factor st.2.attrs = e.factor attrs := hf _ _ hinv.attrs
      have ha : Dict.merge (Dict.merge st.2.attrs st.2.attrs) (Dict.update st.1.params ps) =
          fun k => (Dict.update m0.params (ps0 ++ accepted m0.params steps ++ ps) k).or (attrs k) := by
        funext k
        rw [hupd]
        simp only [Dict.merge]
        cases hk : Dict.update st.1.params ps k with
        | some v => rfl
        | none =>
          have h2 := update_none m0 _ hdom k
          rw [hupd, hk] at h2
          have h3 : m0.params k = none := by
            cases h : m0.params k with
            | none => rfl
            | some v => rw [h] at h2; cases h2
          have h4 := hinv.attrs k h3
          rw [← h4]
          show (st.2.attrs k).orElse _ = _
          cases hq : st.2.attrs k with
          | none => simp [st, hq] at *
          | some v => simp [st] at hq; simp [hq]
      have hr : (List.range e.size).map (fun _ => s) = List.replicate e.size s := by
        rw [List.map_const', List.length_range]
      have hfs : (fsatOf e.sat m0.types (specRows e m0 halos s (ps0 ++ accepted m0.params steps ++ ps))).elim st.2.fsat some =
          fsatOf e.sat m0.types (specRows e m0 halos s (ps0 ++ accepted m0.params steps ++ ps)) := by
        cases ht : typeAttr m0.types e.sat with
        | none =>
          simp only [fsatOf, ht, Option.map_none, Option.elim_none]
          exact hinv.fsat ht
        | some i => simp only [fsatOf, ht, Option.map_some, Option.elim_some]
      rw [hfac, ha, hr, hfs]
  rw [hold]
  by_cases h0 : (specRows e m0 halos s (ps0 ++ accepted m0.params steps ++ ps)).flatten = []
  · rw [if_pos h0]
    have hn : new = (⟨Dict.update m0.params (ps0 ++ accepted m0.params steps ++ ps), m0.types, some halos⟩, none, .error .empty) := by
      simp only [new]; rw [hnew, if_pos h0]
    rw [hn, hupd]
    exact ⟨rfl, rfl, fun h => by cases h⟩
  · rw [if_neg h0]
    have hn1 : new.1 = ⟨Dict.update m0.params (ps0 ++ accepted m0.params steps ++ ps), m0.types, some halos⟩ := by
      simp only [new]; rw [hnew, if_neg h0]
    have hn3 : new.2.2 = .ok () := by
      simp only [new]; rw [hnew, if_neg h0]
    rw [hn1, hn3, hupd]
    exact ⟨rfl, rfl, fun _ => rfl⟩

end

/-! ## Galaxy types -/

theorem fold_idx {α β : Type} [DecidableEq α] (t : α) (f : Nat → β) : ∀ (l : List α) (k : Nat) (a : β), l.Nodup →
    (l.zipIdx k).foldl (fun acc p => if t = p.1 then f p.2 else acc) a = if t ∈ l then f (k + l.idxOf t) else a
  | [], _, _, _ => by simp
  | x :: l, k, a, h => by
    have hx := (List.nodup_cons.1 h).1
    rw [List.zipIdx_cons, List.foldl_cons, fold_idx t f l (k + 1) _ (List.nodup_cons.1 h).2]
    by_cases ht : t = x
    · subst ht
      simp [hx]
    · have ht' : ¬ x = t := fun e => ht e.symm
      by_cases hl : t ∈ l
      · simp only [hl, if_true, List.mem_cons, or_true, List.idxOf_cons_ne _ ht']
        congr 1
        omega
      · simp [hl, ht]

/-- When the types after the first are in the order of `sorted`, the integer of a galaxy is the one stored in `attrs['gal_types']`: its place in the
list of types. -/
theorem types_agree_partial [LinearOrder τ] (types : List τ) (h : types.Nodup) (hs : (types.drop 1).Pairwise (· ≤ ·)) (t : τ) (ht : t ∈ types) :
    typeAttr types t = some (enumType types t) ∧ enumType types t = types.idxOf t := by
  have h1 : typeAttr types t = some (types.idxOf t) := by
    unfold typeAttr
    rw [fold_idx t some types 0 none h, if_pos ht, Nat.zero_add]
  have h2 : enumType types t = types.idxOf t := by
    unfold enumType
    rw [List.Pairwise.insertionSort_eq hs, fold_idx t (· + 1) _ 0 0 (h.sublist (List.drop_sublist 1 types)), Nat.zero_add]
    cases types with
    | nil => cases ht
    | cons x l =>
      simp only [List.drop_succ_cons, List.drop_zero]
      have hx := (List.nodup_cons.1 h).1
      by_cases he : t = x
      · subst he
        rw [if_neg hx, List.idxOf_cons_self]
      · have hl : t ∈ l := (List.mem_cons.1 ht).resolve_left he
        rw [if_pos hl, List.idxOf_cons_ne _ (fun e => he e.symm)]
  rw [h1, h2]
  exact ⟨rfl, rfl⟩

/-- The satellite fraction counts the galaxies that halotools calls satellites, among all, when the types after the first are sorted. -/
theorem fsat_partial [LinearOrder τ] (e : Env κ V τ H G S K) (types : List τ) (h : types.Nodup) (hs : (types.drop 1).Pairwise (· ≤ ·)) (hsat : e.sat ∈ types)
    (params : Dict κ V) (halos : List (List H)) (seed : Nat → S)
    (ht : ∀ r, ∀ g ∈ e.pop params (halos.getD r []) (e.stream (seed r) r), g.1 ∈ types) :
    let gals := (List.range e.size).flatMap fun r => e.pop params (halos.getD r []) (e.stream (seed r) r)
    fsatOf e.sat types (rowsOf e types params halos seed) = some ((gals.filter fun g => decide (g.1 = e.sat)).length, gals.length) := by
  have hidx : ∀ t ∈ types, enumType types t = types.idxOf t := fun t ht => (types_agree_partial types h hs t ht).2
  have h1 := (types_agree_partial types h hs e.sat hsat).1
  have hmap : (rowsOf e types params halos seed).flatten =
      ((List.range e.size).flatMap fun r => e.pop params (halos.getD r []) (e.stream (seed r) r)).map fun g => (enumType types g.1, g.2) := by
    unfold rowsOf
    rw [List.map_flatMap, List.flatMap_def]
  unfold fsatOf
  simp only [h1, Option.map_some, hmap, List.length_map, Option.some.injEq, Prod.mk.injEq, and_true, List.countP_map]
  rw [← List.countP_eq_length_filter]
  apply List.countP_congr
  intro g hg
  obtain ⟨r, _, hr⟩ := List.mem_flatMap.mp hg
  have hgt := ht r g hr
  simp only [Function.comp, beq_iff_eq, decide_eq_true_eq, hidx g.1 hgt, hidx e.sat hsat]
  exact ⟨fun h => List.idxOf_inj hgt |>.mp h, fun h => by rw [h]⟩

/-- With two types the stored integers are always right. -/
theorem two_types [LinearOrder τ] (c s : τ) (h : c ≠ s) : typeAttr [c, s] c = some 0 ∧ typeAttr [c, s] s = some 1 ∧ enumType [c, s] c = 0 ∧ enumType [c, s] s = 1 := by
  have hn : [c, s].Nodup := by simp [h]
  have hs : ([c, s].drop 1).Pairwise (· ≤ ·) := by simp
  obtain ⟨a1, a2⟩ := types_agree_partial [c, s] hn hs c (by simp)
  obtain ⟨b1, b2⟩ := types_agree_partial [c, s] hn hs s (by simp)
  have e1 : [c, s].idxOf c = 0 := by simp
  have e2 : [c, s].idxOf s = 1 := by rw [List.idxOf_cons_ne _ h]; simp
  rw [e1] at a2
  rw [e2] at b2
  exact ⟨by rw [a1, a2], by rw [b1, b2], a2, b2⟩

/-- Types after the first that are not sorted: the rows hold other integers than `attrs['gal_types']` says. -/
theorem types_mixed : ∃ (types : List Nat) (t : Nat), types.Nodup ∧ t ∈ types ∧ typeAttr types t ≠ some (enumType types t) :=
  ⟨[0, 2, 1], 1, by decide, by decide, by decide +kernel⟩

/-! ## Cases -/

/-- Parameters 0 and 1, key 9 is the redshift; a galaxy of type 0 and satellites of type 1; the population gives each halo as many galaxies as the parameter 0
says, with a value made from the seed. -/
def exEnv (random : Nat → Nat) : Env Nat Nat Nat Nat (Nat × Rat) Nat Rat where
  size := 2
  random := random
  stream := fun s r => 10 * s + r
  pop := fun d hs s => hs.flatMap fun h => (List.range ((d 0).getD 0)).map fun i => (i, (h + s, (i : Rat)))
  factor := fun d => (((d 9).getD 0 : Nat) : Rat)
  vel := fun g => g.2
  sat := 1

def exModel : HModel Nat Nat Nat Nat where
  params := fun k => if k = 0 then some 2 else if k = 1 then some 5 else none
  types := [0, 1]
  mock := none

def exAttrs : Dict Nat Nat := fun k => if k = 9 then some 3 else none

/-- Two ranks, one halo each: rows, offsets, seeds and satellites of the first population. -/
example : ((populate (exEnv fun _ => 0) exAttrs [[100], [200]] exModel (some 4) [(1, 6)]).2.1.map fun c => c.rows) =
      some [[(0, (140, 0)), (1, (140, 1))], [(0, (241, 0)), (1, (241, 1))]] ∧
    ((populate (exEnv fun _ => 0) exAttrs [[100], [200]] exModel (some 4) [(1, 6)]).2.1.map fun c => (c.offset, c.seeds)) =
      some (some [[0, 3], [0, 3]], some [4, 4]) ∧
    ((populate (exEnv fun _ => 0) exAttrs [[100], [200]] exModel (some 4) [(1, 6)]).2.1.map fun c => (c.fsat, c.attrs 1, c.attrs 9)) =
      some (some (2, 4), some 6, some 3) := by
  refine ⟨?_, ?_, ?_⟩ <;> decide +kernel

/-- A case of the history: a population, a refused call, a call that finds no galaxy, and a last call. -/
example : ∃ m1 c1, populate (exEnv fun _ => 0) exAttrs [[100], [200]] exModel (some 4) [(1, 6)] = (m1, some c1, .ok ()) ∧
    accepted exModel.params [(some 1, [(7, 7)]), ((none : Option Nat), [(0, 0)])] = [(0, 0)] ∧
    ((repopulate (exEnv fun _ => 0) (run (exEnv fun _ => 0) (m1, c1) [(some 1, [(7, 7)]), (none, [(0, 0)])]).2
      (run (exEnv fun _ => 0) (m1, c1) [(some 1, [(7, 7)]), (none, [(0, 0)])]).1 (some 5) [(0, 1)]).2.1.map fun c => (c.rows, c.attrs 1, c.attrs 0)) =
      some ([[(0, (150, 0))], [(0, (251, 0))]], some 6, some 1) := by
  refine ⟨_, _, rfl, ?_, ?_⟩ <;> decide +kernel

/-- The same model instance for a second halo catalog: the galaxies are in the halos of the first one. -/
theorem second_catalog_ignored : ∃ (e : Env Nat Nat Nat Nat (Nat × Rat) Nat Rat) (m : HModel Nat Nat Nat Nat) (attrs : Dict Nat Nat) (h1 h2 : List (List Nat)), m.mock = none ∧
    h1 ≠ h2 ∧ (populate e attrs h2 (populate e attrs h1 m (some 4) []).1 (some 4) []).2.1.map (fun c => c.rows) =
      (populate e attrs h1 m (some 4) []).2.1.map (fun c => c.rows) ∧
    (populate e attrs h2 (populate e attrs h1 m (some 4) []).1 (some 4) []).2.1.map (fun c => c.rows) ≠
      (populate e attrs h2 m (some 4) []).2.1.map (fun c => c.rows) :=
  ⟨exEnv fun _ => 0, exModel, exAttrs, [[100], [200]], [[300], [400]], rfl, by decide, by decide +kernel, by decide +kernel⟩

/-- Any second population by the same instance, of any halos: they are not looked at. -/
theorem second_catalog [DecidableEq κ] [LinearOrder τ] [Mul K] (e : Env κ V τ H G S K) (attrs : Dict κ V) (h1 h2 h2' : List (List H))
    (m : HModel κ V τ H) (hm : m.mock = some h1) (seed : Option S) (ps : List (κ × V)) :
    populate e attrs h2 m seed ps = populate e attrs h2' m seed ps := by
  unfold populate populateMock
  simp only [halosUsed, hm]

/-- Without a seed every rank draws its own: the seed kept in `attrs` is not the same on all ranks, and no single seed gives back the catalog. -/
theorem no_seed_differs : ∃ (e : Env Nat Nat Nat Nat (Nat × Rat) Nat Rat) (m : HModel Nat Nat Nat Nat) (attrs : Dict Nat Nat) (h : List (List Nat)),
    (populate e attrs h m none []).2.1.map (fun c => c.seeds) = some (some [0, 1]) ∧
    ∀ s, (populate e attrs h m (some s) []).2.1.map (fun c => c.rows) ≠ (populate e attrs h m none []).2.1.map (fun c => c.rows) := by
  refine ⟨exEnv id, exModel, exAttrs, [[100], [200]], by decide +kernel, ?_⟩
  intro s hs
  have e0 : (populate (exEnv id) exAttrs [[100], [200]] exModel none []).2.1.map (fun c => c.rows) =
      some [[(0, (100, 0)), (1, (100, 1))], [(0, (211, 0)), (1, (211, 1))]] := by decide +kernel
  have e1 : (populate (exEnv id) exAttrs [[100], [200]] exModel (some s) []).2.1.map (fun c => c.rows) =
      some [[(0, (100 + (10 * s + 0), 0)), (1, (100 + (10 * s + 0), 1))], [(0, (200 + (10 * s + 1), 0)), (1, (200 + (10 * s + 1), 1))]] := by
    rw [populate_spec _ _ _ _ rfl _ _ (by simp)]
    have hr : specRows (exEnv id) exModel [[100], [200]] s [] =
        [[(0, (100 + (10 * s + 0), 0)), (1, (100 + (10 * s + 0), 1))], [(0, (200 + (10 * s + 1), 0)), (1, (200 + (10 * s + 1), 1))]] := by
      have t0 : enumType [0, 1] 0 = 0 := by decide +kernel
      have t1 : enumType [0, 1] 1 = 1 := by decide +kernel
      simp [specRows, rowsOf, exEnv, exModel, Dict.update, List.range_succ, t0, t1]
    rw [hr]
    simp
  rw [e0, e1] at hs
  simp only [Option.some.injEq, List.cons.injEq, Prod.mk.injEq] at hs
  omega

/-- A repopulation without galaxies raises, and leaves the catalog without its columns and with the seed and the parameters of the population before, while
the model has the new parameters. -/
theorem empty_leaves : ∃ (e : Env Nat Nat Nat Nat (Nat × Rat) Nat Rat) (m : HModel Nat Nat Nat Nat) (c : Cat Nat Nat Nat (Nat × Rat) Nat Rat),
    (repopulate e c m (some 5) [(0, 0)]).2.2 = .error .empty ∧ c.overrides = ["Position", "Velocity", "VelocityOffset"] ∧
    (repopulate e c m (some 5) [(0, 0)]).2.1.map (fun c => (c.overrides, c.rows)) = some ([], [[], []]) ∧
    (repopulate e c m (some 5) [(0, 0)]).2.1.map (fun c => (c.seeds, c.attrs 0)) = some (some [4, 4], some 2) ∧
    (repopulate e c m (some 5) [(0, 0)]).1.params 0 = some 0 :=
  ⟨exEnv fun _ => 0, (populate (exEnv fun _ => 0) exAttrs [[100], [200]] exModel (some 4) []).1,
    { rows := [[(0, (140, 0)), (1, (140, 1))], [(0, (241, 0)), (1, (241, 1))]], overrides := ["Position", "Velocity", "VelocityOffset"],
      offset := none, attrs := fun k => if k = 0 then some 2 else exAttrs k, seeds := some [4, 4], types := typeAttr [0, 1], fsat := some (2, 4) },
    by decide +kernel, rfl, by decide +kernel, by decide +kernel, by decide +kernel⟩

end NBK.Populate
