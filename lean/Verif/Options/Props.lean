import Verif.Options.Model
import Mathlib.Data.List.Nodup

/-!
# C14, C15: options and communicators are restored
-/
set_option linter.unusedSimpArgs false
namespace NBK.Options

variable {V : Type}

theorem update_apply (kw : List (String × V)) (o : String → Option V) (k : String) :
    update o kw k = ((kw.reverse.find? (fun p => p.1 = k)).map (·.2)).or (o k) := by
  induction kw generalizing o with
  | nil => simp [update]
  | cons p kw ih =>
    have : update o (p :: kw) = update (fun k => if k = p.1 then some p.2 else o k) kw := rfl
    rw [this, ih]
    simp only [List.reverse_cons, List.find?_append, List.find?_singleton]
    cases hf : kw.reverse.find? (fun q => decide (q.1 = k)) with
    | some q => simp
    | none =>
      by_cases h : k = p.1
      · simp [h]
      · have h' : p.1 ≠ k := fun e => h e.symm
        simp [h, h']

theorem update_dom (kw : List (String × V)) (o : String → Option V) (k : String) (h : o k ≠ none) :
    update o kw k ≠ none := by
  rw [update_apply]
  cases hk : o k with
  | none => exact absurd hk h
  | some v => cases hh : (List.find? (fun p : String × V => decide (p.1 = k)) kw.reverse) <;> simp

/-- The cache size is the option's value. -/
def Consistent (s : St V) : Prop := s.opts gcs = some s.cacheBytes

theorem setOptions_consistent (s : St V) (kw : List (String × V)) (h : Consistent s) : Consistent (setOptions s kw) := by
  unfold Consistent at *
  unfold setOptions
  simp only
  have hd := update_dom kw s.opts gcs (by simp [h])
  split
  · simp only
    cases hu : update s.opts kw gcs with
    | none => exact absurd hu hd
    | some v => simp
  · rename_i hk
    simp only
    rw [update_apply, h]
    have : kw.reverse.find? (fun p => decide (p.1 = gcs)) = none := by
      simp only [List.find?_eq_none, List.mem_reverse]
      intro p hp
      simp only [Bool.not_eq_true, List.any_eq_false] at hk
      simpa using hk p hp
    rw [this]; rfl

/-- C14, cache: at every point of every program, the dask cache size equals the option `global_cache_size`. -/
theorem cache_consistent (p : Prog V) (s : St V) (o : Outcome) (s' : St V) (h : Exec p s o s')
    (hs : Consistent s) : Consistent s' := by
  induction h with
  | skip => exact hs
  | raise => exact hs
  | set s kw h => exact setOptions_consistent s kw hs
  | setBad => exact hs
  | withOpts s kw body o s' h hb ih =>
    unfold Consistent at hs
    unfold Consistent exitOptions
    simp [hs]
  | withBad => exact hs
  | seq p q s s' o s'' _ _ ih1 ih2 => exact ih2 (ih1 hs)
  | seqRaise p q s s' o _ _ ih => exact ih hs
  | iteT c p q s o s' _ _ ih => exact ih hs
  | iteF c p q s o s' _ _ ih => exact ih hs
  | loopEnd => exact hs
  | loopStep c p s s' o s'' _ _ _ ih1 ih2 => exact ih2 (ih1 hs)
  | loopRaise c p s s' o _ _ _ ih => exact ih hs
  | tryOk p q s s' _ ih => exact ih hs
  | tryBad p q s s' o o' s'' _ _ _ ih1 ih2 => exact ih2 (ih1 hs)

/-- C14, restoration: whatever the body does and however the block is left, all options and the cache size are back. -/
theorem with_restores (kw : List (String × V)) (body : Prog V) (s : St V) (o : Outcome) (s' : St V)
    (hs : Consistent s) (h : Exec (.withOpts kw body) s o s') : s' = s := by
  cases h with
  | withOpts s kw body o s1 hk hb =>
    unfold exitOptions
    unfold Consistent at hs
    simp [hs]
  | withBad => rfl

/-- C14, inside the block: the body starts with the given options in force and the other options unchanged
(for distinct keyword names, which Python enforces). -/
theorem with_effect (kw : List (String × V)) (body : Prog V) (s : St V) (o : Outcome) (s' : St V)
    (hn : (kw.map (·.1)).Nodup) (hk : ∀ p ∈ kw, s.opts p.1 ≠ none)
    (h : Exec (.withOpts kw body) s o s') :
    ∃ s0 s1, Exec body s0 o s1 ∧ (∀ p ∈ kw, s0.opts p.1 = some p.2) ∧
      (∀ k, k ∉ kw.map (·.1) → s0.opts k = s.opts k) := by
  have hu : unknown s kw = false := by
    simp only [unknown, List.any_eq_false]
    intro p hp
    cases hh : s.opts p.1 with
    | none => exact absurd hh (hk p hp)
    | some v => simp
  cases h with
  | withBad _ _ _ hx => rw [hu] at hx; cases hx
  | withOpts _ _ _ _ s1 _ hb =>
    refine ⟨_, s1, hb, ?_, ?_⟩
    · intro p hp
      have he : (setOptions s kw).opts = update s.opts kw := by unfold setOptions; simp only; split <;> rfl
      rw [he, update_apply]
      have : kw.reverse.find? (fun q => decide (q.1 = p.1)) = some p := by
        have hx : ∃ q, kw.reverse.find? (fun q => decide (q.1 = p.1)) = some q := by
          have : (kw.reverse.find? (fun q => decide (q.1 = p.1))).isSome := by
            rw [List.find?_isSome]; exact ⟨p, by simpa using hp, by simp⟩
          exact Option.isSome_iff_exists.mp this
        obtain ⟨q, hq⟩ := hx
        have h1 := List.mem_of_find?_eq_some hq
        have h2 := List.find?_some hq
        simp at h1 h2
        obtain ⟨i, hi, rfl⟩ := List.getElem_of_mem h1
        obtain ⟨j, hj, rfl⟩ := List.getElem_of_mem hp
        have : i = j := by
          have := (List.Nodup.getElem_inj_iff hn (i := i) (j := j) (hi := by simpa using hi) (hj := by simpa using hj)).mp
            (by simpa using h2)
          exact this
        subst this; exact hq
      rw [this]; rfl
    · intro k hk'
      have he : (setOptions s kw).opts = update s.opts kw := by unfold setOptions; simp only; split <;> rfl
      rw [he, update_apply]
      have : kw.reverse.find? (fun q => decide (q.1 = k)) = none := by
        simp only [List.find?_eq_none, List.mem_reverse]
        intro q hq hc
        exact hk' (List.mem_map.mpr ⟨q, hq, by simpa using hc⟩)
      rw [this]; simp

/-- C14, unknown option names: with or without `with`, a KeyError is raised, nothing changes and the body is not run. -/
theorem unknown_rejected (kw : List (String × V)) (body : Prog V) (s : St V) (o : Outcome) (s' : St V)
    (hk : ∃ p ∈ kw, s.opts p.1 = none) :
    (Exec (.set kw) s o s' ↔ o = .keyError ∧ s' = s) ∧ (Exec (.withOpts kw body) s o s' ↔ o = .keyError ∧ s' = s) := by
  have hu : unknown s kw = true := by
    obtain ⟨p, hp, hn⟩ := hk
    simp only [unknown, List.any_eq_true]
    exact ⟨p, hp, by simp [hn]⟩
  constructor
  · constructor
    · intro h
      cases h with
      | set _ _ h => rw [hu] at h; cases h
      | setBad => exact ⟨rfl, rfl⟩
    · rintro ⟨rfl, rfl⟩; exact .setBad _ _ hu
  · constructor
    · intro h
      cases h with
      | withOpts _ _ _ _ _ h => rw [hu] at h; cases h
      | withBad => exact ⟨rfl, rfl⟩
    · rintro ⟨rfl, rfl⟩; exact .withBad _ _ _ hu

/-- C14: no program ever adds or removes option names. -/
theorem names_fixed (p : Prog V) (s : St V) (o : Outcome) (s' : St V) (h : Exec p s o s') (k : String) :
    s'.opts k = none ↔ s.opts k = none := by
  have key : ∀ (s : St V) kw, unknown s kw = false → ((setOptions s kw).opts k = none ↔ s.opts k = none) := by
    intro s kw h
    have he : (setOptions s kw).opts = update s.opts kw := by unfold setOptions; simp only; split <;> rfl
    rw [he]
    constructor
    · intro hn
      cases hc : s.opts k with
      | none => rfl
      | some v => exact absurd hn (update_dom kw s.opts k (by simp [hc]))
    · intro hn
      rw [update_apply, hn]
      cases hf : kw.reverse.find? (fun q => decide (q.1 = k)) with
      | none => rfl
      | some q =>
        have h1 := List.mem_of_find?_eq_some hf
        have h2 := List.find?_some hf
        simp at h1 h2
        simp only [unknown, List.any_eq_false] at h
        have := h q h1
        rw [h2, hn] at this; simp at this
  induction h with
  | set s kw h => exact key s kw h
  | seq p q s s' o s'' _ _ ih1 ih2 => exact ih2.trans ih1
  | seqRaise p q s s' o _ _ ih => exact ih
  | iteT c p q s o s' _ _ ih => exact ih
  | iteF c p q s o s' _ _ ih => exact ih
  | loopStep c p s s' o s'' _ _ _ ih1 ih2 => exact ih2.trans ih1
  | loopRaise c p s s' o _ _ _ ih => exact ih
  | tryOk p q s s' _ ih => exact ih
  | tryBad p q s s' o o' s'' _ _ _ ih1 ih2 => exact ih2.trans ih1
  | _ => exact Iff.rfl

/-- Non-vacuity: a nested block left by an exception. -/
example : ∃ s s' : St Nat, Consistent s ∧
    Exec (.withOpts [(gcs, 7)] (.seq (.set [("dask_chunk_size", 3)]) (.withOpts [(gcs, 9)] .raise))) s .userError s' := by
  let s : St Nat := ⟨fun k => if k = gcs then some 1 else if k = "dask_chunk_size" then some 2 else none, 1⟩
  refine ⟨s, _, rfl, .withOpts _ _ _ _ _ (by decide) (.seq _ _ _ _ _ _ (.set _ _ (by decide))
    (.withOpts _ _ _ _ _ (by decide) (.raise _)))⟩

/-! ## C15 -/

variable {κ : Type}

/-- Programs that change the stack only through `with CurrentMPIComm.enter`, and do not catch exceptions that pass
through an `enter` block. -/
def Disciplined : CProg κ → Prop
  | .skip | .raise => True
  | .push _ | .pop | .set _ => False
  | .enter _ b => Disciplined b
  | .seq p q => Disciplined p ∧ Disciplined q
  | .ite _ p q => Disciplined p ∧ Disciplined q
  | .loop _ p => Disciplined p
  | .tryExcept p q => NoEnter p ∧ Disciplined q
where
  /-- no stack operation at all -/
  NoEnter : CProg κ → Prop
  | .skip | .raise => True
  | .push _ | .pop | .set _ | .enter _ _ => False
  | .seq p q => NoEnter p ∧ NoEnter q
  | .ite _ p q => NoEnter p ∧ NoEnter q
  | .loop _ p => NoEnter p
  | .tryExcept p q => NoEnter p ∧ NoEnter q

theorem noEnter_exec (p : CProg κ) (st : List κ) (o : Res) (st' : List κ) (h : CExec p st o st')
    (hd : Disciplined.NoEnter p) : st' = st := by
  induction h with
  | skip => rfl
  | raise => rfl
  | push | pop | popLast | set | setBad | enterOk | enterPopBad | enterBad => exact hd.elim
  | seq p q st st' o st'' _ _ ih1 ih2 => rw [ih2 hd.2, ih1 hd.1]
  | seqRaise p q st st' _ ih => exact ih hd.1
  | iteT c p q st o st' _ _ ih => exact ih hd.1
  | iteF c p q st o st' _ _ ih => exact ih hd.2
  | loopEnd => rfl
  | loopStep c p st st' o st'' _ _ _ ih1 ih2 => rw [ih2 hd, ih1 hd]
  | loopRaise c p st st' _ _ ih => exact ih hd
  | tryOk p q st st' _ ih => exact ih hd.1
  | tryBad p q st st' o st'' _ _ ih1 ih2 => rw [ih2 hd.2, ih1 hd.1]

/-- C15, the part that holds: a disciplined program that ends normally leaves the stack as it was; one that ends with
an exception leaves the communicators entered so far on top. Missing: restoration on exceptions (next theorems). -/
theorem enter_restores_partial (p : CProg κ) (st : List κ) (o : Res) (st' : List κ) (hne : st ≠ [])
    (h : CExec p st o st') (hd : Disciplined p) :
    (o = .normal → st' = st) ∧ (o = .error → st <+: st') := by
  induction h with
  | skip => exact ⟨fun _ => rfl, nofun⟩
  | raise => exact ⟨nofun, fun _ => List.prefix_refl _⟩
  | push | pop | popLast | set | setBad => exact hd.elim
  | enterOk st c body st' hb hl ih =>
    have := (ih (by simp) hd).1 rfl
    subst this
    exact ⟨fun _ => by simp, nofun⟩
  | enterPopBad st c body st' hb hl ih =>
    have := (ih (by simp) hd).1 rfl
    subst this
    exact ⟨nofun, fun _ => by simp⟩
  | enterBad st c body st' hb ih =>
    refine ⟨nofun, fun _ => ?_⟩
    exact (List.prefix_append st [c]).trans ((ih (by simp) hd).2 rfl)
  | seq p q st st' o st'' _ _ ih1 ih2 =>
    have := (ih1 hne hd.1).1 rfl
    subst this
    exact ih2 hne hd.2
  | seqRaise p q st st' _ ih => exact ih hne hd.1
  | iteT c p q st o st' _ _ ih => exact ih hne hd.1
  | iteF c p q st o st' _ _ ih => exact ih hne hd.2
  | loopEnd => exact ⟨fun _ => rfl, nofun⟩
  | loopStep c p st st' o st'' _ _ _ ih1 ih2 =>
    have := (ih1 hne hd).1 rfl
    subst this
    exact ih2 hne hd
  | loopRaise c p st st' _ _ ih => exact ih hne hd
  | tryOk p q st st' hp ih =>
    have := noEnter_exec _ _ _ _ hp hd.1
    exact ⟨fun _ => this, nofun⟩
  | tryBad p q st st' o st'' hp _ ih1 ih2 =>
    have := noEnter_exec _ _ _ _ hp hd.1
    subst this
    exact ih2 hne hd.2

/-- C15, inside: the body of `enter(c)` starts with `c` as the current communicator, for any nesting, and (disciplined
bodies) sees `c` again after every inner block that ends normally. -/
theorem enter_current (c : κ) (body : CProg κ) (st : List κ) (o : Res) (st' : List κ)
    (h : CExec (.enter c body) st o st') :
    ∃ o' s1, CExec body (st ++ [c]) o' s1 ∧ get (st ++ [c]) = some c := by
  cases h with
  | enterOk _ _ _ st1 hb _ => exact ⟨_, _, hb, by simp [get]⟩
  | enterPopBad _ _ _ st1 hb _ => exact ⟨_, _, hb, by simp [get]⟩
  | enterBad _ _ _ _ hb => exact ⟨_, _, hb, by simp [get]⟩

/-- C15 fails on exceptions: a disciplined `enter` block left by an exception *never* restores the stack; the
communicator of the block stays behind. -/
theorem enter_error_not_restored (c : κ) (body : CProg κ) (st : List κ) (st' : List κ) (hne : st ≠ [])
    (hd : Disciplined body) (h : CExec (.enter c body) st .error st') : st' ≠ st ∧ (st ++ [c]) <+: st' := by
  cases h with
  | enterPopBad _ _ _ st1 hb hl =>
    have := (enter_restores_partial body _ _ _ (by simp) hb hd).1 rfl
    subst this
    have := List.length_pos_iff.mpr hne
    simp at hl; omega
  | enterBad _ _ _ _ hb =>
    have := (enter_restores_partial body _ _ _ (by simp) hb hd).2 rfl
    refine ⟨?_, this⟩
    intro he
    have := this.length_le
    simp [he] at this; omega

/-- C15 fails even for blocks that end normally, if an inner block's exception was caught: the block then pops the
wrong communicator and leaves its own behind. -/
theorem enter_wrong_comm (c d w : κ) :
    CExec (.enter c (.tryExcept (.enter d .raise) .skip)) [w] .normal [w, c] ∧ get [w, c] = some c := by
  constructor
  · exact .enterOk [w] c _ [w, c, d] (.tryBad _ _ _ _ _ _ (.enterBad _ _ _ _ (.raise _)) (.skip _)) (by simp)
  · simp [get]

/-- Non-vacuity: nested blocks with a loop around. -/
example : CExec (.seq (.enter 1 (.enter 2 .skip)) (.enter 3 .raise)) [0] .error [0, 3] ∧
    Disciplined (.seq (.enter 1 (.enter 2 .skip)) (.enter 3 .raise) : CProg Nat) := by
  refine ⟨.seq _ _ _ _ _ _ (.enterOk [0] 1 _ [0, 1] (.enterOk [0, 1] 2 _ [0, 1, 2] (.skip _) (by decide)) (by decide))
    (.enterBad _ _ _ _ (.raise _)), ?_⟩
  simp [Disciplined]

end NBK.Options
