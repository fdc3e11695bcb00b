import Verif.Setup.Props
set_option linter.unusedSimpArgs false
/-!
# C125: scopes of communicators
-/
namespace NBK.Setup

/-- No `enter` and no `with tm`, and no bare `push` or `pop`. -/
def NoScope : Prog → Prop
  | .push _ | .pop | .enter _ _ | .withTm _ _ => False
  | .withOpts _ p | .withObj _ p | .loop _ p => NoScope p
  | .seq p q | .ite _ p q | .tryExcept p q => NoScope p ∧ NoScope q
  | _ => True

/-- No bare `push` or `pop`, and no scope inside `try`. -/
def Disciplined : Prog → Prop
  | .push _ | .pop => False
  | .enter _ p | .withTm _ p | .withOpts _ p | .withObj _ p | .loop _ p => Disciplined p
  | .seq p q | .ite _ p q => Disciplined p ∧ Disciplined q
  | .tryExcept p q => NoScope p ∧ Disciplined q
  | _ => True

/-- The stack up to its top. -/
def SameBelow (s s' : St) : Prop := ∃ c, s'.stack = s.stack.dropLast ++ [c]

theorem SameBelow.refl (s : St) (h : s.stack ≠ []) : SameBelow s s :=
  ⟨s.stack.getLast h, (List.dropLast_append_getLast h).symm⟩

theorem SameBelow.trans {s s' s'' : St} (h : SameBelow s s') (h' : SameBelow s' s'') : SameBelow s s'' := by
  obtain ⟨c, hc⟩ := h
  obtain ⟨d, hd⟩ := h'
  exact ⟨d, by rw [hd, hc, List.dropLast_concat]⟩

theorem SameBelow.ne {s s' : St} (h : SameBelow s s') : s'.stack ≠ [] := by
  obtain ⟨c, hc⟩ := h
  rw [hc]
  simp

theorem act_below (s : St) (p : Prog) (s' : St) (b : Bool) (h : act s p = some (s', b)) (hp : NoScope p) (hs : s.stack ≠ []) : SameBelow s s' := by
  have same : s'.stack = s.stack → SameBelow s s' := fun e => by
    obtain ⟨c, hc⟩ := SameBelow.refl s hs
    exact ⟨c, by rw [e]; exact hc⟩
  cases p <;> simp only [act, Option.some.injEq, reduceCtorEq] at h
  case skip => injection h with h; exact same (by rw [← h])
  case raise => injection h with h; exact same (by rw [← h])
  case useMpi c => injection h with h; rw [← h]; exact ⟨_, rfl⟩
  case useDistributed c =>
    unfold useDistributed at h
    cases c with
    | false => injection h with h; exact same (by rw [← h])
    | true => injection h with h; rw [← h]; exact ⟨_, rfl⟩
  case logging l =>
    have e : s' = (setupLogging s l).1 := by rw [h]
    refine same ?_
    rw [e]
    unfold setupLogging
    cases l <;> cases s.ours <;> rfl
  case set kw =>
    split at h
    · injection h with h; exact same (by rw [← h])
    · injection h with h; exact same (by rw [← h])
  case push => exact hp.elim
  case pop => exact hp.elim
  case setComm c =>
    have e : s' = (set s c).1 := by rw [h]
    rw [e]
    unfold set
    split
    · exact SameBelow.refl s hs
    · split
      · exact SameBelow.refl s hs
      · exact ⟨_, rfl⟩
  case newTm n a c =>
    have e : s' = (newTm s n a c).1 := by rw [h]
    refine same ?_
    rw [e, newTm_same]
  case isWorker i => injection h with h; exact same (by rw [← h])

theorem noScope_below (p : Prog) (s : St) (o : Outcome) (s' : St) (h : Exec p s o s') : NoScope p → s.stack ≠ [] → SameBelow s s' := by
  induction h with
  | act p s s' b h => exact act_below s p s' b h
  | withOpts s kw body o s' h hb ih => exact fun hp hs => ih hp hs
  | withBad s => exact fun _ hs => SameBelow.refl s hs
  | withObj s i body o s' old h hb ih => exact fun hp hs => ih hp hs
  | enterBad => exact fun hp => hp.elim
  | enter => exact fun hp => hp.elim
  | enterRaise => exact fun hp => hp.elim
  | tmBad => exact fun hp => hp.elim
  | tm => exact fun hp => hp.elim
  | tmRaise => exact fun hp => hp.elim
  | seq p q s s' o s'' hp hq ih1 ih2 => exact fun hp hs => (ih1 hp.1 hs).trans (ih2 hp.2 (ih1 hp.1 hs).ne)
  | seqRaise p q s s' o ho hp ih => exact fun hp hs => ih hp.1 hs
  | iteT c p q s o s' h hp ih => exact fun hp hs => ih hp.1 hs
  | iteF c p q s o s' h hp ih => exact fun hp hs => ih hp.2 hs
  | loopEnd c p s => exact fun _ hs => SameBelow.refl s hs
  | loopStep c p s s' o s'' h hp hl ih1 ih2 => exact fun hp hs => (ih1 hp hs).trans (ih2 hp (ih1 hp hs).ne)
  | loopRaise c p s s' o h ho hp ih => exact fun hp hs => ih hp hs
  | tryOk p q s s' hp ih => exact fun hp hs => ih hp.1 hs
  | tryBad p q s s' o s'' hp hq ih1 ih2 => exact fun hp hs => (ih1 hp.1 hs).trans (ih2 hp.2 (ih1 hp.1 hs).ne)
  | tryGone p q s s' hp ih => exact fun hp hs => ih hp.1 hs

theorem noScope_disciplined (p : Prog) (h : NoScope p) : Disciplined p := by
  induction p with
  | skip | raise | useMpi | useDistributed | logging | set | setComm | newTm | isWorker => trivial
  | push | pop | enter | withTm => exact h.elim
  | withOpts kw p ih => exact ih h
  | withObj i p ih => exact ih h
  | loop c p ih => exact ih h
  | seq p q ih1 ih2 => exact ⟨ih1 h.1, ih2 h.2⟩
  | ite c p q ih1 ih2 => exact ⟨ih1 h.1, ih2 h.2⟩
  | tryExcept p q ih1 ih2 => exact ⟨h.1, ih2 h.2⟩

theorem act_noScope (s : St) (p : Prog) (s' : St) (b : Bool) (h : act s p = some (s', b)) (hp : Disciplined p) : NoScope p := by
  cases p <;> simp only [act, Option.some.injEq, reduceCtorEq] at h <;> first | exact hp.elim | trivial

theorem pop_ok (s s' : St) (h : pop s = (s', true)) : s'.stack = s.stack.dropLast := by
  unfold pop at h
  split at h
  · cases h
  · split at h
    · cases h
    · dsimp only at h
      split at h
      · cases h
      · injection h with h
        rw [← h]

theorem free_stack (s : St) (c : Comm) : (free s c).1.stack = s.stack := by rw [free_same]

theorem enterTm_ok (s s1 : St) (i : Nat) (h : enterTm s i = (s1, true)) : s1.stack = s.stack ++ [.other s.table.length] := by
  unfold enterTm at h
  split at h
  · cases h
  · split at h
    · cases h
    · split at h
      · cases h
      · injection h with h
        rw [← h]

theorem exitTm_ok (s s' : St) (i : Nat) (h : exitTm s i = (s', true)) : s'.stack = s.stack.dropLast := by
  unfold exitTm at h
  split at h
  · cases h
  · split at h
    · cases h
    · cases hp : pop s with
      | mk s1 b =>
        rw [hp] at h
        cases b with
        | false => cases h
        | true =>
          dsimp only at h
          have h1 := pop_ok s s1 hp
          split at h
          · injection h with h
            rw [← h, h1]
          · rename_i c _
            have : s' = (free s1 c).1 := by rw [h]
            rw [this, free_stack, h1]

theorem disciplined_below (p : Prog) (s : St) (o : Outcome) (s' : St) (h : Exec p s o s') : Disciplined p → s.stack ≠ [] → o = .normal → SameBelow s s' := by
  induction h with
  | act p s s' b h => exact fun hp hs _ => act_below s p s' b h (act_noScope s p s' b h hp) hs
  | withOpts s kw body o s' h hb ih => exact fun hp hs ho => ih hp hs ho
  | withBad s => exact fun _ hs _ => SameBelow.refl s hs
  | withObj s i body o s' old h hb ih => exact fun hp hs ho => ih hp hs ho
  | enterBad => exact fun _ _ ho => by cases ho
  | enter s c body s1 s2 s' b h hb hp ih =>
    intro hd hs ho
    have e1 : s1.stack = s.stack ++ [c] := by
      unfold push at h
      injection h with h
      rw [← h]
    obtain ⟨d, hd'⟩ := ih hd (by rw [e1]; simp) rfl
    rw [e1, List.dropLast_concat] at hd'
    have hb' := (outcome_normal b).mp ho
    subst hb'
    have e3 := pop_ok s2 s' hp
    rw [hd', List.dropLast_concat] at e3
    obtain ⟨e, he⟩ := SameBelow.refl s hs
    exact ⟨e, by rw [e3]; exact he⟩
  | enterRaise s c body s1 o s' h hb ho ih => exact fun _ _ hx => absurd hx ho
  | tmBad => exact fun _ _ ho => by cases ho
  | tm s i body s1 s2 s' b h hb hp ih =>
    intro hd hs ho
    have e1 := enterTm_ok s s1 i h
    obtain ⟨d, hd'⟩ := ih hd (by rw [e1]; simp) rfl
    rw [e1, List.dropLast_concat] at hd'
    have hb' := (outcome_normal b).mp ho
    subst hb'
    have e3 := exitTm_ok s2 s' i hp
    rw [hd', List.dropLast_concat] at e3
    obtain ⟨e, he⟩ := SameBelow.refl s hs
    exact ⟨e, by rw [e3]; exact he⟩
  | tmRaise => exact fun _ _ ho => by cases ho
  | seq p q s s' o s'' hp hq ih1 ih2 => exact fun hd hs ho => (ih1 hd.1 hs rfl).trans (ih2 hd.2 (ih1 hd.1 hs rfl).ne ho)
  | seqRaise p q s s' o ho hp ih => exact fun _ _ hx => absurd hx ho
  | iteT c p q s o s' h hp ih => exact fun hd hs ho => ih hd.1 hs ho
  | iteF c p q s o s' h hp ih => exact fun hd hs ho => ih hd.2 hs ho
  | loopEnd c p s => exact fun _ hs _ => SameBelow.refl s hs
  | loopStep c p s s' o s'' h hp hl ih1 ih2 => exact fun hd hs ho => (ih1 hd hs rfl).trans (ih2 hd (ih1 hd hs rfl).ne ho)
  | loopRaise c p s s' o h ho hp ih => exact fun _ _ hx => absurd hx ho
  | tryOk p q s s' hp ih => exact fun hd hs _ => noScope_below p s .normal s' hp hd.1 hs
  | tryBad p q s s' o s'' hp hq ih1 ih2 =>
    intro hd hs ho
    have h1 := noScope_below p s .error s' hp hd.1 hs
    exact h1.trans (ih2 hd.2 h1.ne ho)
  | tryGone => exact fun _ _ ho => by cases ho

/-- C125: after `with CurrentMPIComm.enter(c)` and `with tm` that end without an exception all the communicators are those before, also if `use_mpi`,
`use_distributed` or `CurrentMPIComm.set` were called in the body (for client code that does not push and pop by itself and does not catch exceptions that leave
such a block). -/
theorem scope_restores_partial (body : Prog) (hb : Disciplined body) (s s' : St) (hs : s.stack ≠ []) :
    (∀ c, Exec (.enter c body) s .normal s' → s'.stack = s.stack) ∧ (∀ i, Exec (.withTm i body) s .normal s' → s'.stack = s.stack) := by
  constructor
  · intro c h
    generalize ho : Outcome.normal = o at h
    cases h with
    | act _ _ _ _ h2 => simp [act] at h2
    | enterBad => cases ho
    | enter _ _ _ s1 s2 _ b h hb2 hp =>
      have e1 : s1.stack = s.stack ++ [c] := by
        unfold push at h
        injection h with h
        rw [← h]
      obtain ⟨d, hd'⟩ := disciplined_below _ _ _ _ hb2 hb (by rw [e1]; simp) rfl
      rw [e1, List.dropLast_concat] at hd'
      have hb' := (outcome_normal b).mp ho.symm
      subst hb'
      rw [pop_ok s2 s' hp, hd', List.dropLast_concat]
    | enterRaise _ _ _ _ _ _ _ _ hn => exact absurd ho.symm hn
  · intro i h
    generalize ho : Outcome.normal = o at h
    cases h with
    | act _ _ _ _ h2 => simp [act] at h2
    | tmBad => cases ho
    | tm _ _ _ s1 s2 _ b h hb2 hp =>
      have e1 := enterTm_ok s s1 i h
      obtain ⟨d, hd'⟩ := disciplined_below _ _ _ _ hb2 hb (by rw [e1]; simp) rfl
      rw [e1, List.dropLast_concat] at hd'
      have hb' := (outcome_normal b).mp ho.symm
      subst hb'
      rw [exitTm_ok s2 s' i hp, hd', List.dropLast_concat]
    | tmRaise => cases ho

/-- C125: an exception in the body of `with tm` ends the process: no handler of it is run, whatever the client code around. -/
theorem tm_exception_fatal (i : Nat) (body : Prog) (s s1 s2 : St) (o : Outcome) (h : enterTm s i = (s1, true)) (hb : Exec body s1 o s2) (ho : o ≠ .normal)
    (q r : Prog) (o' : Outcome) (s' : St) (hx : Exec (.tryExcept (.seq (.withTm i body) q) r) s o' s') : o' = .exited ∧ s' = s2 :=
  exec_unique _ s .exited s2 (.tryGone _ _ _ _ (.seqRaise _ _ _ _ _ (by decide) (.tmRaise s i body s1 o s2 h hb ho))) o' s' hx

/-- C125: `with tm` raises an exception only if it cannot be entered, or after a body that ended well. -/
theorem tm_error (i : Nat) (body : Prog) (s s' : St) (h : Exec (.withTm i body) s .error s') :
    enterTm s i = (s', false) ∨ ∃ s1 s2, enterTm s i = (s1, true) ∧ Exec body s1 .normal s2 ∧ exitTm s2 i = (s', false) := by
  generalize ho : Outcome.error = o at h
  cases h with
  | act _ _ _ _ h2 => simp [act] at h2
  | tmBad _ _ _ _ h => exact Or.inl h
  | tm _ _ _ s1 s2 _ b h hb hp =>
    have : b = false := by cases b <;> simp [outcome] at ho ⊢
    subst this
    exact Or.inr ⟨s1, s2, h, hb, hp⟩
  | tmRaise => cases ho

/-! ## Communicators that are freed -/

/-- The explicit communicators are not made by a `TaskManager`. -/
def Given (n : Nat) : Comm → Prop
  | .null => False
  | .other i => i < n
  | _ => True

def Uses (n : Nat) : Prog → Prop
  | .useMpi c => ∀ d, c = some d → Given n d
  | .setComm c | .push c => Given n c
  | .enter c p => Given n c ∧ Uses n p
  | .newTm _ _ c => ∀ d, c = some d → Given n d
  | .withTm _ p | .withOpts _ p | .withObj _ p | .loop _ p => Uses n p
  | .seq p q | .ite _ p q | .tryExcept p q => Uses n p ∧ Uses n q
  | _ => True

/-- What holds between the statements: the communicators of task managers are new ones, those freed are such, and those in use exist. -/
structure Sound (n : Nat) (s : St) : Prop where
  big : n ≤ s.table.length
  freedNew : ∀ i ∈ s.freed, n ≤ i
  made : ∀ (j : Nat) t c, s.tms[j]? = some t → t.comm = some c → ∃ k, c = .other k ∧ n ≤ k ∧ k < s.table.length

theorem given_alive (n : Nat) (s : St) (h : Sound n s) (c : Comm) (hc : Given n c) : alive s c = true := by
  unfold alive dimsOf
  cases c with
  | null => exact hc.elim
  | self => rfl
  | world => rfl
  | other i =>
    have h1 : i ∉ s.freed := fun hx => by
      have := h.freedNew i hx
      have : i < n := hc
      omega
    have h2 : i < s.table.length := Nat.lt_of_lt_of_le hc h.big
    simp [h1, List.getElem?_eq_getElem h2]

theorem alive_congr (s s' : St) (c : Comm) (h1 : s'.freed = s.freed) (h2 : s'.table = s.table) : alive s' c = alive s c := by
  unfold alive dimsOf
  cases c <;> simp [h1, h2]

/-- The arguments of a manager are not changed. -/
def sameArgs (t t' : Tm) : Prop := t'.base = t.base ∧ t'.size = t.size ∧ t'.rank = t.rank ∧ t'.cpus = t.cpus ∧ t'.useAll = t.useAll

/-- What later states have in common with a state: tables grow, the communicator of a manager is replaced by later ones only, and what `is_worker` gives
stays. -/
structure Later (s s' : St) : Prop where
  table : s.table.length ≤ s'.table.length
  tms : ∀ (j : Nat) t, s.tms[j]? = some t → ∃ t', s'.tms[j]? = some t' ∧ sameArgs t t' ∧ (t.valid.isSome = true → t'.valid.isSome = true) ∧
    ∀ k, t.comm = some (.other k) → k < s.table.length → ∃ k', t'.comm = some (.other k') ∧ k ≤ k' ∧ k' < s'.table.length

theorem sameArgs.refl (t : Tm) : sameArgs t t := ⟨rfl, rfl, rfl, rfl, rfl⟩

theorem Later.same (s s' : St) (h1 : s'.table = s.table) (h2 : s'.tms = s.tms) : Later s s' :=
  ⟨by rw [h1]; exact Nat.le_refl _, fun j t ht => ⟨t, by rw [h2]; exact ht, sameArgs.refl t, id, fun k hk hl => ⟨k, hk, Nat.le_refl _, by rw [h1]; exact hl⟩⟩⟩

theorem Later.trans {s s' s'' : St} (h : Later s s') (h' : Later s' s'') : Later s s'' := by
  refine ⟨Nat.le_trans h.table h'.table, fun j t ht => ?_⟩
  obtain ⟨t', a1, a2, a3, a4⟩ := h.tms j t ht
  obtain ⟨t'', b1, b2, b3, b4⟩ := h'.tms j t' a1
  refine ⟨t'', b1, ⟨b2.1.trans a2.1, b2.2.1.trans a2.2.1, b2.2.2.1.trans a2.2.2.1, b2.2.2.2.1.trans a2.2.2.2.1, b2.2.2.2.2.trans a2.2.2.2.2⟩, fun hv => b3 (a3 hv), ?_⟩
  intro k hk hl
  obtain ⟨k', c1, c2, c3⟩ := a4 k hk hl
  obtain ⟨k'', d1, d2, d3⟩ := b4 k' c1 c3
  exact ⟨k'', d1, Nat.le_trans c2 d2, d3⟩

theorem newTm_later (s : St) (n : Nat) (a : Bool) (c : Option Comm) : Later s (newTm s n a c).1 := by
  unfold newTm
  split
  · exact Later.same _ _ rfl rfl
  · split
    · exact Later.same _ _ rfl rfl
    · split
      · exact Later.same _ _ rfl rfl
      · refine ⟨Nat.le_refl _, fun j t ht => ⟨t, ?_, sameArgs.refl t, id, fun k hk hl => ⟨k, hk, Nat.le_refl _, hl⟩⟩⟩
        dsimp only
        rw [List.getElem?_append_left (List.getElem?_eq_some_iff.mp ht).1]
        exact ht

theorem enterTm_later (s : St) (i : Nat) : Later s (enterTm s i).1 := by
  unfold enterTm
  split
  · exact Later.same _ _ rfl rfl
  · rename_i t0 ht0
    have hi := (List.getElem?_eq_some_iff.mp ht0).1
    split
    · exact Later.same _ _ rfl rfl
    · split
      · refine ⟨Nat.le_refl _, fun j t ht => ?_⟩
        dsimp only
        by_cases hj : j = i
        · subst hj
          rw [ht0] at ht
          injection ht with ht
          subst ht
          exact ⟨_, List.getElem?_set_self hi, ⟨rfl, rfl, rfl, rfl, rfl⟩, fun _ => rfl, fun k hk hl => ⟨k, hk, Nat.le_refl _, hl⟩⟩
        · exact ⟨t, by rw [List.getElem?_set_ne (Ne.symm hj)]; exact ht, sameArgs.refl t, id, fun k hk hl => ⟨k, hk, Nat.le_refl _, hl⟩⟩
      · refine ⟨by dsimp only; rw [List.length_append]; omega, fun j t ht => ?_⟩
        dsimp only
        by_cases hj : j = i
        · subst hj
          rw [ht0] at ht
          injection ht with ht
          subst ht
          exact ⟨_, List.getElem?_set_self hi, ⟨rfl, rfl, rfl, rfl, rfl⟩, fun _ => rfl, fun k hk hl => ⟨_, rfl, Nat.le_of_lt hl, by simp⟩⟩
        · exact ⟨t, by rw [List.getElem?_set_ne (Ne.symm hj)]; exact ht, sameArgs.refl t, id, fun k hk hl => ⟨k, hk, Nat.le_refl _, by
            rw [List.length_append]; omega⟩⟩

theorem exitTm_later (s : St) (i : Nat) : Later s (exitTm s i).1 := by
  rw [exitTm_same]
  exact Later.same _ _ rfl rfl

theorem pop_later (s : St) : Later s (pop s).1 := by
  rw [pop_same]
  exact Later.same _ _ rfl rfl

theorem act_later (s : St) (p : Prog) (s' : St) (b : Bool) (h : act s p = some (s', b)) : Later s s' := by
  cases p <;> simp only [act, Option.some.injEq, reduceCtorEq] at h
  case skip => injection h with h; rw [← h]; exact Later.same _ _ rfl rfl
  case raise => injection h with h; rw [← h]; exact Later.same _ _ rfl rfl
  case useMpi c => injection h with h; rw [← h]; exact Later.same _ _ rfl rfl
  case useDistributed c =>
    unfold useDistributed at h
    cases c with
    | false => injection h with h; rw [← h]; exact Later.same _ _ rfl rfl
    | true => injection h with h; rw [← h]; exact Later.same _ _ rfl rfl
  case logging l =>
    have e : s' = (setupLogging s l).1 := by rw [h]
    rw [e]
    unfold setupLogging
    cases l <;> cases s.ours <;> exact Later.same _ _ rfl rfl
  case set kw =>
    split at h
    · injection h with h; rw [← h]; exact Later.same _ _ rfl rfl
    · injection h with h; rw [← h]; exact Later.same _ _ rfl rfl
  case push c => injection h with h; rw [← h]; exact Later.same _ _ rfl rfl
  case pop =>
    have e : s' = (pop s).1 := by rw [h]
    rw [e]
    exact pop_later s
  case setComm c =>
    have e : s' = (set s c).1 := by rw [h]
    rw [e, set_same]
    exact Later.same _ _ rfl rfl
  case newTm n a c =>
    have e : s' = (newTm s n a c).1 := by rw [h]
    rw [e]
    exact newTm_later s n a c
  case isWorker i => injection h with h; rw [← h]; exact Later.same _ _ rfl rfl

theorem exec_later (p : Prog) (s : St) (o : Outcome) (s' : St) (h : Exec p s o s') : Later s s' := by
  induction h with
  | act p s s' b h => exact act_later s p s' b h
  | withOpts s kw body o s' h hb ih =>
    have h1 : Later s { s with opts := Options.setOptions s.opts kw, saved := s.saved ++ [s.opts.opts] } := Later.same _ _ rfl rfl
    have h2 : Later s' { s' with opts := Options.exitOptions s.opts.opts s'.opts } := Later.same _ _ rfl rfl
    exact (h1.trans ih).trans h2
  | withBad => exact Later.same _ _ rfl rfl
  | withObj s i body o s' old h hb ih =>
    have h2 : Later s' { s' with opts := Options.exitOptions old s'.opts } := Later.same _ _ rfl rfl
    exact ih.trans h2
  | enterBad s c body s' h =>
    have : s' = (push s c).1 := by rw [h]
    rw [this]
    exact Later.same _ _ rfl rfl
  | enter s c body s1 s2 s' b h hb hp ih =>
    have e1 : s1 = (push s c).1 := by rw [h]
    have e2 : s' = (pop s2).1 := by rw [hp]
    have h1 : Later s s1 := by rw [e1]; exact Later.same _ _ rfl rfl
    have h2 : Later s2 s' := by rw [e2]; exact pop_later s2
    exact (h1.trans ih).trans h2
  | enterRaise s c body s1 o s' h hb ho ih =>
    have e1 : s1 = (push s c).1 := by rw [h]
    have h1 : Later s s1 := by rw [e1]; exact Later.same _ _ rfl rfl
    exact h1.trans ih
  | tmBad s i body s' h =>
    have : s' = (enterTm s i).1 := by rw [h]
    rw [this]
    exact enterTm_later s i
  | tm s i body s1 s2 s' b h hb hp ih =>
    have e1 : s1 = (enterTm s i).1 := by rw [h]
    have e2 : s' = (exitTm s2 i).1 := by rw [hp]
    have h1 : Later s s1 := by rw [e1]; exact enterTm_later s i
    have h2 : Later s2 s' := by rw [e2]; exact exitTm_later s2 i
    exact (h1.trans ih).trans h2
  | tmRaise s i body s1 o s' h hb ho ih =>
    have e1 : s1 = (enterTm s i).1 := by rw [h]
    have h1 : Later s s1 := by rw [e1]; exact enterTm_later s i
    exact h1.trans ih
  | seq p q s s' o s'' hp hq ih1 ih2 => exact ih1.trans ih2
  | seqRaise p q s s' o ho hp ih => exact ih
  | iteT c p q s o s' h hp ih => exact ih
  | iteF c p q s o s' h hp ih => exact ih
  | loopEnd => exact Later.same _ _ rfl rfl
  | loopStep c p s s' o s'' h hp hl ih1 ih2 => exact ih1.trans ih2
  | loopRaise c p s s' o h ho hp ih => exact ih
  | tryOk p q s s' hp ih => exact ih
  | tryBad p q s s' o s'' hp hq ih1 ih2 => exact ih1.trans ih2
  | tryGone p q s s' hp ih => exact ih

/-! ## What is kept by every program -/

theorem sound_same (n : Nat) (s s' : St) (h : Sound n s) (h1 : s'.table = s.table) (h2 : s'.tms = s.tms) (h3 : s'.freed = s.freed) : Sound n s' :=
  ⟨by rw [h1]; exact h.big, by rw [h3]; exact h.freedNew, by rw [h1, h2]; exact h.made⟩

theorem free_sound (n : Nat) (s : St) (h : Sound n s) (c : Comm) (hc : ∀ i, c = .other i → n ≤ i) : Sound n (free s c).1 := by
  unfold free
  split
  · rename_i i
    split
    · refine ⟨h.big, ?_, h.made⟩
      intro j hj
      rcases List.mem_cons.mp hj with rfl | hj
      · exact hc _ rfl
      · exact h.freedNew j hj
    · exact h
  · exact h

theorem exitTm_sound (n : Nat) (s : St) (i : Nat) (h : Sound n s) : Sound n (exitTm s i).1 := by
  unfold exitTm
  split
  · exact h
  · rename_i t ht
    split
    · exact h
    · have e := pop_same s
      cases hp : pop s with
      | mk s1 b =>
        rw [hp] at e
        dsimp only at e
        have h1 : Sound n s1 := by rw [e]; exact sound_same n s _ h rfl rfl rfl
        cases b with
        | false => exact h1
        | true =>
          dsimp only
          split
          · exact h1
          · rename_i c hc
            refine free_sound n s1 h1 c fun k hk => ?_
            obtain ⟨k', e1, e2, _⟩ := h.made i t c ht hc
            rw [hk] at e1
            injection e1 with e1
            omega

theorem newTm_sound (n : Nat) (s : St) (m : Nat) (a : Bool) (c : Option Comm) (h : Sound n s) : Sound n (newTm s m a c).1 := by
  unfold newTm
  split
  · exact h
  · split
    · exact h
    · split
      · exact h
      · refine ⟨h.big, h.freedNew, ?_⟩
        intro j t d ht hd
        dsimp only at ht
        rw [List.getElem?_append] at ht
        split at ht
        · exact h.made j t d ht hd
        · rw [List.getElem?_singleton] at ht
          split at ht
          · injection ht with ht
            subst ht
            cases hd
          · cases ht

theorem enterTm_sound (n : Nat) (s : St) (i : Nat) (h : Sound n s) : Sound n (enterTm s i).1 := by
  unfold enterTm
  split
  · exact h
  · rename_i t0 ht0
    have hi := (List.getElem?_eq_some_iff.mp ht0).1
    split
    · exact h
    · split
      · refine ⟨h.big, h.freedNew, ?_⟩
        intro j t d ht hd
        dsimp only at ht
        by_cases hj : j = i
        · subst hj
          rw [List.getElem?_set_self hi] at ht
          injection ht with ht
          subst ht
          exact h.made j t0 d ht0 hd
        · rw [List.getElem?_set_ne (Ne.symm hj)] at ht
          exact h.made j t d ht hd
      · refine ⟨by dsimp only; rw [List.length_append]; exact Nat.le_trans h.big (Nat.le_add_right _ _), h.freedNew, ?_⟩
        intro j t d ht hd
        dsimp only at ht ⊢
        by_cases hj : j = i
        · subst hj
          rw [List.getElem?_set_self hi] at ht
          injection ht with ht
          subst ht
          injection hd with hd
          exact ⟨_, hd.symm, h.big, by rw [List.length_append]; exact Nat.lt_succ_self _⟩
        · rw [List.getElem?_set_ne (Ne.symm hj)] at ht
          obtain ⟨k, e1, e2, e3⟩ := h.made j t d ht hd
          exact ⟨k, e1, e2, by rw [List.length_append]; omega⟩

theorem act_sound (n : Nat) (s : St) (p : Prog) (s' : St) (b : Bool) (h : act s p = some (s', b)) (hs : Sound n s) : Sound n s' := by
  cases p <;> simp only [act, Option.some.injEq, reduceCtorEq] at h
  case skip => injection h with h; rw [← h]; exact hs
  case raise => injection h with h; rw [← h]; exact hs
  case useMpi c => injection h with h; rw [← h]; exact sound_same n s _ hs rfl rfl rfl
  case useDistributed c =>
    unfold useDistributed at h
    cases c with
    | false => injection h with h; rw [← h]; exact sound_same n s _ hs rfl rfl rfl
    | true => injection h with h; rw [← h]; exact sound_same n s _ hs rfl rfl rfl
  case logging l =>
    have e : s' = (setupLogging s l).1 := by rw [h]
    rw [e]
    unfold setupLogging
    cases l <;> cases s.ours <;> exact sound_same n s _ hs rfl rfl rfl
  case set kw =>
    split at h
    · injection h with h; rw [← h]; exact hs
    · injection h with h; rw [← h]; exact sound_same n s _ hs rfl rfl rfl
  case push c => injection h with h; rw [← h]; exact sound_same n s _ hs rfl rfl rfl
  case pop =>
    have e : s' = (pop s).1 := by rw [h]
    rw [e, pop_same]
    exact sound_same n s _ hs rfl rfl rfl
  case setComm c =>
    have e : s' = (set s c).1 := by rw [h]
    rw [e, set_same]
    exact sound_same n s _ hs rfl rfl rfl
  case newTm m a c =>
    have e : s' = (newTm s m a c).1 := by rw [h]
    rw [e]
    exact newTm_sound n s m a c hs
  case isWorker i => injection h with h; rw [← h]; exact hs

theorem exec_sound (n : Nat) (p : Prog) (s : St) (o : Outcome) (s' : St) (h : Exec p s o s') (hs : Sound n s) : Sound n s' :=
  exec_invariant (Sound n) (fun s p s' b h hs => act_sound n s p s' b h hs) (fun s kw _ hs => sound_same n s _ hs rfl rfl rfl)
    (fun s s' kw _ hs => sound_same n s' _ hs rfl rfl rfl) (fun s s' i old _ hs _ => sound_same n s' _ hs rfl rfl rfl)
    (fun s c hs => sound_same n s _ hs rfl rfl rfl) (fun s hs => by rw [pop_same]; exact sound_same n s _ hs rfl rfl rfl)
    (fun s i hs => enterTm_sound n s i hs) (fun s i hs => exitTm_sound n s i hs) p s o s' h hs

/-- All the communicators of the stack can be used. -/
def Live (s : St) : Prop := ∀ c ∈ s.stack, alive s c = true

theorem live_same (s s' : St) (h : Live s) (h1 : s'.stack = s.stack) (h2 : s'.freed = s.freed) (h3 : s'.table = s.table) : Live s' := by
  intro c hc
  rw [alive_congr s s' c h2 h3]
  exact h c (h1 ▸ hc)

theorem live_top (n : Nat) (s s' : St) (hs : Sound n s) (h : Live s) (c : Comm) (hc : Given n c) (h1 : s'.stack = s.stack.dropLast ++ [c])
    (h2 : s'.freed = s.freed) (h3 : s'.table = s.table) : Live s' := by
  intro d hd
  rw [alive_congr s s' d h2 h3]
  rw [h1] at hd
  rcases List.mem_append.mp hd with hd | hd
  · exact h d (List.dropLast_subset _ hd)
  · rw [List.mem_singleton.mp hd]
    exact given_alive n s hs c hc

theorem pop_live (s : St) (h : Live s) : Live (pop s).1 := by
  have key : (pop s).1.stack = s.stack ∨ (pop s).1.stack = s.stack.dropLast := by
    unfold pop
    split
    · exact Or.inl rfl
    · split
      · exact Or.inl rfl
      · dsimp only
        split
        · exact Or.inr rfl
        · exact Or.inr rfl
  intro c hc
  have e := pop_same s
  have : alive (pop s).1 c = alive s c := by rw [e]; exact alive_congr _ _ c rfl rfl
  rw [this]
  rcases key with hk | hk
  · exact h c (hk ▸ hc)
  · rw [hk] at hc
    exact h c (List.dropLast_subset _ hc)

theorem act_live (n : Nat) (s : St) (p : Prog) (s' : St) (b : Bool) (h : act s p = some (s', b)) (hp : NoScope p) (hu : Uses n p) (hs : Sound n s) (hl : Live s) :
    Live s' := by
  cases p <;> simp only [act, Option.some.injEq, reduceCtorEq] at h
  case skip => injection h with h; rw [← h]; exact hl
  case raise => injection h with h; rw [← h]; exact hl
  case useMpi c =>
    injection h with h
    rw [← h]
    refine live_top n s _ hs hl (c.getD .world) ?_ rfl rfl rfl
    cases c with
    | none => trivial
    | some d => exact hu d rfl
  case useDistributed c =>
    unfold useDistributed at h
    cases c with
    | false => injection h with h; rw [← h]; exact live_same s _ hl rfl rfl rfl
    | true => injection h with h; rw [← h]; exact live_top n s _ hs hl .self trivial rfl rfl rfl
  case logging l =>
    have e : s' = (setupLogging s l).1 := by rw [h]
    rw [e]
    unfold setupLogging
    cases l <;> cases s.ours <;> exact live_same s _ hl rfl rfl rfl
  case set kw =>
    split at h
    · injection h with h; rw [← h]; exact hl
    · injection h with h; rw [← h]; exact live_same s _ hl rfl rfl rfl
  case push c => exact hp.elim
  case pop => exact hp.elim
  case setComm c =>
    have e : s' = (set s c).1 := by rw [h]
    rw [e]
    unfold set
    split
    · exact hl
    · split
      · exact hl
      · exact live_top n s _ hs hl c hu rfl rfl rfl
  case newTm m a c =>
    have e : s' = (newTm s m a c).1 := by rw [h]
    rw [e, newTm_same]
    exact live_same s _ hl rfl rfl rfl
  case isWorker i => injection h with h; rw [← h]; exact hl

theorem alive_grow (s s' : St) (x : List (Nat × Nat)) (c : Comm) (h : alive s c = true) (h1 : s'.freed = s.freed) (h2 : s'.table = s.table ++ x) :
    alive s' c = true := by
  unfold alive dimsOf at h ⊢
  cases c with
  | null => exact h
  | self => exact h
  | world => rfl
  | other i =>
    dsimp only at h ⊢
    rw [h1, h2]
    by_cases hi : i ∈ s.freed
    · rw [if_pos hi] at h
      cases h
    · rw [if_neg hi] at h ⊢
      cases ht : s.table[i]? with
      | none => rw [ht] at h; cases h
      | some d =>
        rw [List.getElem?_append_left (List.getElem?_eq_some_iff.mp ht).1, ht]
        rfl

theorem enterTm_live (n : Nat) (s : St) (i : Nat) (hn : ∀ k ∈ s.freed, k < s.table.length) (hl : Live s) : Live (enterTm s i).1 := by
  unfold enterTm
  split
  · exact hl
  · split
    · exact hl
    · split
      · exact live_same s _ hl rfl rfl rfl
      · intro c hc
        dsimp only at hc
        rcases List.mem_append.mp hc with hc | hc
        · exact alive_grow s _ _ c (hl c hc) rfl rfl
        · rw [List.mem_singleton.mp hc]
          unfold alive dimsOf
          dsimp only
          rw [if_neg (fun hx => Nat.lt_irrefl _ (hn _ hx))]
          simp

/-- The numbers freed are of communicators that exist. -/
def FreedOld (s : St) : Prop := ∀ k ∈ s.freed, k < s.table.length

theorem freedOld_exec (p : Prog) (s : St) (o : Outcome) (s' : St) (h : Exec p s o s') (hs : FreedOld s) : FreedOld s' := by
  have same : ∀ (s s' : St), FreedOld s → s'.freed = s.freed → Later s s' → FreedOld s' := by
    intro s s' h0 h1 h2 k hk
    rw [h1] at hk
    exact Nat.lt_of_lt_of_le (h0 k hk) h2.table
  refine exec_invariant FreedOld ?_ (fun s kw _ hs => hs) (fun s s' kw _ hs => hs) (fun s s' i old _ hs _ => hs)
    (fun s c hs => hs) (fun s hs => by rw [pop_same]; exact hs) (fun s i hs => same s _ hs (by rw [enterTm_same]) (enterTm_later s i)) ?_ p s o s' h hs
  · intro s p s' b h hs
    refine same s s' hs ?_ (act_later s p s' b h)
    cases p <;> simp only [act, Option.some.injEq, reduceCtorEq] at h
    case skip => injection h with h; rw [← h]
    case raise => injection h with h; rw [← h]
    case useMpi c => injection h with h; rw [← h]; rfl
    case useDistributed c =>
      unfold useDistributed at h
      cases c with
      | false => injection h with h; rw [← h]
      | true => injection h with h; rw [← h]; rfl
    case logging l =>
      have e : s' = (setupLogging s l).1 := by rw [h]
      rw [e]
      unfold setupLogging
      cases l <;> cases s.ours <;> rfl
    case set kw =>
      split at h
      · injection h with h; rw [← h]
      · injection h with h; rw [← h]
    case push c => injection h with h; rw [← h]
    case pop =>
      have e : s' = (pop s).1 := by rw [h]
      rw [e, pop_same]
    case setComm c =>
      have e : s' = (set s c).1 := by rw [h]
      rw [e, set_same]
    case newTm m a c =>
      have e : s' = (newTm s m a c).1 := by rw [h]
      rw [e, newTm_same]
    case isWorker i => injection h with h; rw [← h]
  · intro s i hs
    unfold exitTm
    split
    · exact hs
    · split
      · exact hs
      · have e := pop_same s
        cases hp : pop s with
        | mk s1 b =>
          rw [hp] at e
          dsimp only at e
          have h1 : FreedOld s1 := by rw [e]; exact hs
          cases b with
          | false => exact h1
          | true =>
            dsimp only
            split
            · exact h1
            · rename_i c _
              unfold free
              split
              · rename_i k
                split
                · rename_i ha
                  intro j hj
                  rcases List.mem_cons.mp hj with rfl | hj
                  · unfold alive dimsOf at ha
                    dsimp only at ha ⊢
                    split at ha
                    · cases ha
                    · cases ht : s1.table[j]? with
                      | none => rw [ht] at ha; cases ha
                      | some d => exact (List.getElem?_eq_some_iff.mp ht).1
                  · exact h1 j hj
                · exact h1
              · exact h1

theorem alive_free (s : St) (k : Nat) (c : Comm) (hc : c ≠ .other k) (h : alive s c = true) : alive { s with freed := k :: s.freed } c = true := by
  unfold alive dimsOf at h ⊢
  cases c with
  | null => exact h
  | self => exact h
  | world => rfl
  | other i =>
    dsimp only at h ⊢
    have hik : i ≠ k := fun hx => hc (by rw [hx])
    by_cases hi : i ∈ s.freed
    · rw [if_pos hi] at h
      cases h
    · rw [if_neg hi] at h
      rw [if_neg (by simp [hik, hi])]
      exact h

theorem exec_live (n : Nat) (p : Prog) (s : St) (o : Outcome) (s' : St) (h : Exec p s o s') :
    Disciplined p → Uses n p → Sound n s → FreedOld s → s.stack ≠ [] → Live s → Live s' := by
  induction h with
  | act p s s' b h => exact fun hd hu hs _ _ hl => act_live n s p s' b h (act_noScope s p s' b h hd) hu hs hl
  | withOpts s kw body o s' h hb ih =>
    intro hd hu hs hf hn hl
    exact ih hd hu (sound_same n s _ hs rfl rfl rfl) hf hn hl
  | withBad => exact fun _ _ _ _ _ hl => hl
  | withObj s i body o s' old h hb ih =>
    intro hd hu hs hf hn hl
    exact ih hd hu hs hf hn hl
  | enterBad s c body s' h =>
    intro hd hu hs hf hn hl
    have : alive s c = false := by
      unfold push at h
      injection h with _ h
    rw [given_alive n s hs c hu.1] at this
    cases this
  | enter s c body s1 s2 s' b h hb hp ih =>
    intro hd hu hs hf hn hl
    have e1 : s1 = (push s c).1 := by rw [h]
    have hs1 : Sound n s1 := by rw [e1]; exact sound_same n s _ hs rfl rfl rfl
    have hl1 : Live s1 := by
      rw [e1]
      intro d hd
      rcases List.mem_append.mp hd with hd | hd
      · exact hl d hd
      · rw [List.mem_singleton.mp hd]
        exact given_alive n s hs c hu.1
    have hl2 := ih hd hu.2 hs1 (by rw [e1]; exact hf) (by rw [e1]; unfold push; simp) hl1
    have e2 : s' = (pop s2).1 := by rw [hp]
    rw [e2]
    exact pop_live s2 hl2
  | enterRaise s c body s1 o s' h hb ho ih =>
    intro hd hu hs hf hn hl
    have e1 : s1 = (push s c).1 := by rw [h]
    have hs1 : Sound n s1 := by rw [e1]; exact sound_same n s _ hs rfl rfl rfl
    have hl1 : Live s1 := by
      rw [e1]
      intro d hd
      rcases List.mem_append.mp hd with hd | hd
      · exact hl d hd
      · rw [List.mem_singleton.mp hd]
        exact given_alive n s hs c hu.1
    exact ih hd hu.2 hs1 (by rw [e1]; exact hf) (by rw [e1]; unfold push; simp) hl1
  | tmBad s i body s' h =>
    intro hd hu hs hf hn hl
    have : s' = (enterTm s i).1 := by rw [h]
    rw [this]
    exact enterTm_live n s i hf hl
  | tm s i body s1 s2 s' b h hb hp ih =>
    intro hd hu hs hf hn hl
    have e1 : s1 = (enterTm s i).1 := by rw [h]
    have hs1 : Sound n s1 := by rw [e1]; exact enterTm_sound n s i hs
    have hl1 : Live s1 := by rw [e1]; exact enterTm_live n s i hf hl
    have hst1 := enterTm_ok s s1 i h
    have hf1 : FreedOld s1 := by
      intro k hk
      have hk' : k ∈ s.freed := by
        rw [e1, enterTm_same] at hk
        exact hk
      have := (enterTm_later s i).table
      rw [← e1] at this
      exact Nat.lt_of_lt_of_le (hf k hk') this
    have hn1 : s1.stack ≠ [] := by rw [hst1]; simp
    have hl2 := ih hd hu hs1 hf1 hn1 hl1
    obtain ⟨d, hbelow⟩ := disciplined_below body s1 _ s2 hb hd hn1 rfl
    rw [hst1, List.dropLast_concat] at hbelow
    have hlat := exec_later body s1 _ s2 hb
    -- the manager
    have e2 : s' = (exitTm s2 i).1 := by rw [hp]
    rw [e2]
    unfold exitTm
    split
    · exact hl2
    · rename_i t2 ht2
      split
      · exact hl2
      · have hpl := pop_live s2 hl2
        have hps := pop_same s2
        cases hpop : pop s2 with
        | mk s3 b3 =>
          rw [hpop] at hpl hps
          dsimp only at hpl hps
          cases b3 with
          | false => exact hpl
          | true =>
            dsimp only
            have hst3 := pop_ok s2 s3 hpop
            rw [hbelow, List.dropLast_concat] at hst3
            split
            · exact hpl
            · rename_i c hc
              unfold free
              split
              · rename_i k
                split
                · -- the communicator that is freed was made after those of the stack
                  have hk : s.table.length ≤ k := by
                    obtain ⟨t0, ht0⟩ : ∃ t0, s1.tms[i]? = some t0 ∧ t0.comm = some (.other s.table.length) ∧ s.table.length < s1.table.length := by
                      have hx := h
                      unfold enterTm at hx
                      split at hx
                      · cases hx
                      · rename_i t00 ht00
                        have hi := (List.getElem?_eq_some_iff.mp ht00).1
                        split at hx
                        · cases hx
                        · split at hx
                          · cases hx
                          · injection hx with hx
                            rw [← hx]
                            exact ⟨_, List.getElem?_set_self hi, rfl, by simp⟩
                    obtain ⟨t', g1, _, _, g4⟩ := hlat.tms i t0 ht0.1
                    rw [ht2] at g1
                    injection g1 with g1
                    subst g1
                    obtain ⟨k', g5, g6, _⟩ := g4 _ ht0.2.1 ht0.2.2
                    rw [hc] at g5
                    injection g5 with g5
                    injection g5 with g5
                    omega
                  intro x hx
                  refine alive_free s3 k x ?_ (hpl x hx)
                  intro hxk
                  have hx' : x ∈ s.stack := by
                    dsimp only at hx
                    rw [hst3] at hx
                    exact hx
                  have ha := hl x hx'
                  rw [hxk] at ha
                  unfold alive dimsOf at ha
                  dsimp only at ha
                  split at ha
                  · cases ha
                  · rw [List.getElem?_eq_none hk] at ha
                    cases ha
                · exact hpl
              · exact hpl
  | tmRaise s i body s1 o s' h hb ho ih =>
    intro hd hu hs hf hn hl
    have e1 : s1 = (enterTm s i).1 := by rw [h]
    have hf1 : FreedOld s1 := by
      intro k hk
      have hk' : k ∈ s.freed := by
        rw [e1, enterTm_same] at hk
        exact hk
      have := (enterTm_later s i).table
      rw [← e1] at this
      exact Nat.lt_of_lt_of_le (hf k hk') this
    exact ih hd hu (by rw [e1]; exact enterTm_sound n s i hs) hf1 (by rw [enterTm_ok s s1 i h]; simp) (by rw [e1]; exact enterTm_live n s i hf hl)
  | seq p q s s' o s'' hp hq ih1 ih2 =>
    intro hd hu hs hf hn hl
    exact ih2 hd.2 hu.2 (exec_sound n _ _ _ _ hp hs) (freedOld_exec _ _ _ _ hp hf) (disciplined_below _ _ _ _ hp hd.1 hn rfl).ne (ih1 hd.1 hu.1 hs hf hn hl)
  | seqRaise p q s s' o ho hp ih => exact fun hd hu hs hf hn hl => ih hd.1 hu.1 hs hf hn hl
  | iteT c p q s o s' h hp ih => exact fun hd hu hs hf hn hl => ih hd.1 hu.1 hs hf hn hl
  | iteF c p q s o s' h hp ih => exact fun hd hu hs hf hn hl => ih hd.2 hu.2 hs hf hn hl
  | loopEnd => exact fun _ _ _ _ _ hl => hl
  | loopStep c p s s' o s'' h hp hlp ih1 ih2 =>
    intro hd hu hs hf hn hl
    exact ih2 hd hu (exec_sound n _ _ _ _ hp hs) (freedOld_exec _ _ _ _ hp hf) (disciplined_below _ _ _ _ hp hd hn rfl).ne (ih1 hd hu hs hf hn hl)
  | loopRaise c p s s' o h ho hp ih => exact fun hd hu hs hf hn hl => ih hd hu hs hf hn hl
  | tryOk p q s s' hp ih => exact fun hd hu hs hf hn hl => ih (noScope_disciplined p hd.1) hu.1 hs hf hn hl
  | tryBad p q s s' o s'' hp hq ih1 ih2 =>
    intro hd hu hs hf hn hl
    exact ih2 hd.2 hu.2 (exec_sound n _ _ _ _ hp hs) (freedOld_exec _ _ _ _ hp hf) (noScope_below _ _ _ _ hp hd.1 hn).ne
      (ih1 (noScope_disciplined p hd.1) hu.1 hs hf hn hl)
  | tryGone p q s s' hp ih => exact fun hd hu hs hf hn hl => ih (noScope_disciplined p hd.1) hu.1 hs hf hn hl

theorem initial_sound (dims : Nat × Nat) (table : List (Nat × Nat)) : Sound table.length (initial dims table) :=
  ⟨Nat.le_refl _, (fun i hi => by cases hi), (fun j t c ht => by cases ht)⟩

/-- C125: whatever such client code does, with task managers inside task managers, `CurrentMPIComm.get()` is never a communicator that was freed. -/
theorem current_alive_partial (dims : Nat × Nat) (table : List (Nat × Nat)) (p : Prog) (hd : Disciplined p) (hu : Uses table.length p) (o : Outcome) (s' : St)
    (h : Exec p (initial dims table) o s') : ∀ c ∈ s'.stack, alive s' c = true :=
  exec_live table.length p _ o s' h hd hu (initial_sound dims table) (fun k hk => by cases hk) (by unfold initial; simp) (fun c hc => by
    have : c = .world := by simpa [initial] using hc
    rw [this]
    rfl)

/-! ## Workers -/

/-- The answer of `is_worker` is that of the split of the ranks. -/
def ValidOk (s : St) : Prop := ∀ (j : Nat) t v, s.tms[j]? = some t → t.valid = some v → ∃ ctx, TaskMgr.enter t.size t.cpus t.useAll t.rank = .ok ctx ∧ ctx.valid = v

theorem validOk_exec (p : Prog) (s : St) (o : Outcome) (s' : St) (h : Exec p s o s') (hs : ValidOk s) : ValidOk s' := by
  have same : ∀ (s s' : St), ValidOk s → s'.tms = s.tms → ValidOk s' := by
    intro s s' h0 h1 j t v ht
    rw [h1] at ht
    exact h0 j t v ht
  refine exec_invariant ValidOk ?_ (fun s kw _ hs => hs) (fun s s' kw _ hs => hs) (fun s s' i old _ hs _ => hs)
    (fun s c hs => hs) (fun s hs => by rw [pop_same]; exact hs) ?_ (fun s i hs => by rw [exitTm_same]; exact hs) p s o s' h hs
  · intro s p s' b h hs
    cases p <;> simp only [act, Option.some.injEq, reduceCtorEq] at h
    case newTm m a c =>
      have e : s' = (newTm s m a c).1 := by rw [h]
      rw [e]
      unfold newTm
      split
      · exact hs
      · split
        · exact hs
        · split
          · exact hs
          · intro j t v ht hv
            dsimp only at ht
            rw [List.getElem?_append] at ht
            split at ht
            · exact hs j t v ht hv
            · rw [List.getElem?_singleton] at ht
              split at ht
              · injection ht with ht
                subst ht
                cases hv
              · cases ht
    case skip => injection h with h; rw [← h]; exact hs
    case raise => injection h with h; rw [← h]; exact hs
    case useMpi c => injection h with h; rw [← h]; exact same s _ hs rfl
    case useDistributed c =>
      unfold useDistributed at h
      cases c with
      | false => injection h with h; rw [← h]; exact same s _ hs rfl
      | true => injection h with h; rw [← h]; exact same s _ hs rfl
    case logging l =>
      have e : s' = (setupLogging s l).1 := by rw [h]
      rw [e]
      unfold setupLogging
      cases l <;> cases s.ours <;> exact same s _ hs rfl
    case set kw =>
      split at h
      · injection h with h; rw [← h]; exact hs
      · injection h with h; rw [← h]; exact same s _ hs rfl
    case push c => injection h with h; rw [← h]; exact same s _ hs rfl
    case pop =>
      have e : s' = (pop s).1 := by rw [h]
      rw [e, pop_same]
      exact same s _ hs rfl
    case setComm c =>
      have e : s' = (set s c).1 := by rw [h]
      rw [e, set_same]
      exact same s _ hs rfl
    case isWorker i => injection h with h; rw [← h]; exact hs
  · intro s i hs
    unfold enterTm
    split
    · exact hs
    · rename_i t0 ht0
      have hi := (List.getElem?_eq_some_iff.mp ht0).1
      split
      · exact hs
      · rename_i ctx hctx
        split
        · intro j t v ht hv
          dsimp only at ht
          by_cases hj : j = i
          · subst hj
            rw [List.getElem?_set_self hi] at ht
            injection ht with ht
            subst ht
            injection hv with hv
            exact ⟨ctx, hctx, hv⟩
          · rw [List.getElem?_set_ne (Ne.symm hj)] at ht
            exact hs j t v ht hv
        · intro j t v ht hv
          dsimp only at ht
          by_cases hj : j = i
          · subst hj
            rw [List.getElem?_set_self hi] at ht
            injection ht with ht
            subst ht
            injection hv with hv
            exact ⟨ctx, hctx, hv⟩
          · rw [List.getElem?_set_ne (Ne.symm hj)] at ht
            exact hs j t v ht hv

/-- C125: inside the context, and after it, `is_worker` is what the split of the ranks says; the ValueError is raised only by a manager that was never
entered. -/
theorem is_worker_spec (dims : Nat × Nat) (table : List (Nat × Nat)) (p : Prog) (o : Outcome) (s : St) (h : Exec p (initial dims table) o s) (i : Nat) (t : Tm)
    (ht : s.tms[i]? = some t) :
    (∀ v, isWorker s i = some v → ∃ ctx, TaskMgr.enter t.size t.cpus t.useAll t.rank = .ok ctx ∧ ctx.valid = v) ∧
    (∀ s1, enterTm s i = (s1, true) → ∃ ctx, TaskMgr.enter t.size t.cpus t.useAll t.rank = .ok ctx ∧
      ∀ body o' s2, Exec body s1 o' s2 → isWorker s2 i = some ctx.valid ∧ ∀ s3 b, exitTm s2 i = (s3, b) → isWorker s3 i = some ctx.valid) := by
  have hv := validOk_exec p _ o s h (fun j t v ht => by cases ht)
  constructor
  · intro v hx
    unfold isWorker at hx
    rw [ht] at hx
    exact hv i t v ht hx
  · intro s1 h1
    have hv1 : ValidOk s1 := validOk_exec (.withTm i .raise) s .exited s1 (.tmRaise s i .raise s1 .error s1 h1 (.act _ _ _ false rfl) (by decide)) hv
    have hx := h1
    unfold enterTm at hx
    rw [ht] at hx
    dsimp only at hx
    have hi := (List.getElem?_eq_some_iff.mp ht).1
    split at hx
    · cases hx
    · rename_i ctx hctx
      split at hx
      · cases hx
      · injection hx with hx
        refine ⟨ctx, hctx, ?_⟩
        intro body o' s2 hb
        have hlat := exec_later body s1 o' s2 hb
        have hv2 := validOk_exec body s1 o' s2 hb hv1
        have h0 : s1.tms[i]? = some { t with valid := some ctx.valid, comm := some (.other s.table.length) } := by
          rw [← hx]
          exact List.getElem?_set_self hi
        obtain ⟨t', g1, g2, g3, _⟩ := hlat.tms i _ h0
        have hsome := g3 rfl
        obtain ⟨v, hvv⟩ := Option.isSome_iff_exists.mp hsome
        obtain ⟨ctx', c1, c2⟩ := hv2 i t' v g1 hvv
        obtain ⟨_, a2, a3, a4, a5⟩ := g2
        dsimp only at a2 a3 a4 a5
        rw [a2, a3, a4, a5, hctx] at c1
        injection c1 with c1
        have e2 : isWorker s2 i = some ctx.valid := by
          unfold isWorker
          rw [g1]
          show t'.valid = _
          rw [hvv, ← c2, c1]
        refine ⟨e2, ?_⟩
        intro s3 b h3
        have e3 : s3 = (exitTm s2 i).1 := by rw [h3]
        rw [e3, exitTm_same]
        exact e2

end NBK.Setup
