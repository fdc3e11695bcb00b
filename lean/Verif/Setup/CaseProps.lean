import Verif.Setup.ScopeProps
/-!
# Programs met by the theorems on settings, and programs that show their limits (C125)
-/
set_option linter.unusedSimpArgs false
namespace NBK.Setup

/-- Programs without loops. -/
def noLoop : Prog → Bool
  | .loop _ _ => false
  | .withOpts _ b => noLoop b
  | .withObj _ b => noLoop b
  | .enter _ b => noLoop b
  | .withTm _ b => noLoop b
  | .seq p q => noLoop p && noLoop q
  | .ite _ p q => noLoop p && noLoop q
  | .tryExcept p q => noLoop p && noLoop q
  | _ => true

/-- What a program without loops does; used to build the executions below. An absent object counts as an exception. -/
def eval : Prog → St → Option (Outcome × St)
  | .withOpts kw b, s =>
    if Options.unknown s.opts kw then some (.error, s)
    else (eval b { s with opts := Options.setOptions s.opts kw, saved := s.saved ++ [s.opts.opts] }).map fun r =>
      (r.1, { r.2 with opts := Options.exitOptions s.opts.opts r.2.opts })
  | .withObj i b, s => match s.saved[i]? with
    | none => none
    | some old => (eval b s).map fun r => (r.1, { r.2 with opts := Options.exitOptions old r.2.opts })
  | .enter c b, s =>
    if (push s c).2 then
      match eval b (push s c).1 with
      | none => none
      | some (o, s2) => if o = .normal then some (outcome (pop s2).2, (pop s2).1) else some (o, s2)
    else some (.error, (push s c).1)
  | .withTm i b, s =>
    if (enterTm s i).2 then
      match eval b (enterTm s i).1 with
      | none => none
      | some (o, s2) => if o = .normal then some (outcome (exitTm s2 i).2, (exitTm s2 i).1) else some (.exited, s2)
    else some (.error, (enterTm s i).1)
  | .seq p q, s => match eval p s with
    | none => none
    | some (o, s1) => if o = .normal then eval q s1 else some (o, s1)
  | .ite c p q, s => if c s then eval p s else eval q s
  | .loop _ _, _ => none
  | .tryExcept p q, s => match eval p s with
    | none => none
    | some (o, s1) => match o with
      | .normal => some (.normal, s1)
      | .error => eval q s1
      | .exited => some (.exited, s1)
  | p, s => (act s p).map fun r => (outcome r.2, r.1)

theorem eval_exec (p : Prog) : ∀ (s : St) (o : Outcome) (s' : St), eval p s = some (o, s') → Exec p s o s' := by
  have simple : ∀ (p : Prog) (s : St) (o : Outcome) (s' : St), ((act s p).map fun r => (outcome r.2, r.1)) = some (o, s') → Exec p s o s' := by
    intro p s o s' h
    cases ha : act s p with
    | none => rw [ha] at h; cases h
    | some r =>
      rw [ha] at h
      injection h with h
      injection h with h1 h2
      rw [← h1, ← h2]
      exact .act p s r.1 r.2 ha
  induction p with
  | withOpts kw b ih =>
    intro s o s' h
    unfold eval at h
    split at h
    · rename_i hu
      injection h with h
      injection h with h1 h2
      rw [← h1, ← h2]
      exact .withBad s kw b hu
    · rename_i hu
      cases he : eval b { s with opts := Options.setOptions s.opts kw, saved := s.saved ++ [s.opts.opts] } with
      | none => rw [he] at h; cases h
      | some r =>
        rw [he] at h
        injection h with h
        injection h with h1 h2
        rw [← h1, ← h2]
        exact .withOpts s kw b r.1 r.2 (by simpa using hu) (ih _ _ _ he)
  | withObj i b ih =>
    intro s o s' h
    unfold eval at h
    split at h
    · cases h
    · rename_i old ho
      cases he : eval b s with
      | none => rw [he] at h; cases h
      | some r =>
        rw [he] at h
        injection h with h
        injection h with h1 h2
        rw [← h1, ← h2]
        exact .withObj s i b r.1 r.2 old ho (ih _ _ _ he)
  | enter c b ih =>
    intro s o s' h
    unfold eval at h
    cases hp : push s c with
    | mk s1 f =>
      rw [hp] at h
      dsimp only at h
      cases f with
      | false =>
        rw [if_neg (by decide)] at h
        injection h with h
        injection h with h1 h2
        rw [← h1, ← h2]
        exact .enterBad s c b s1 hp
      | true =>
        rw [if_pos rfl] at h
        split at h
        · cases h
        · rename_i o2 s2 he
          by_cases ho : o2 = .normal
          · rw [if_pos ho] at h
            subst ho
            injection h with h
            injection h with h1 h2
            rw [← h1, ← h2]
            exact .enter s c b s1 s2 _ _ hp (ih _ _ _ he) rfl
          · rw [if_neg ho] at h
            injection h with h
            injection h with h1 h2
            rw [← h1, ← h2]
            exact .enterRaise s c b s1 o2 s2 hp (ih _ _ _ he) ho
  | withTm i b ih =>
    intro s o s' h
    unfold eval at h
    cases hp : enterTm s i with
    | mk s1 f =>
      rw [hp] at h
      dsimp only at h
      cases f with
      | false =>
        rw [if_neg (by decide)] at h
        injection h with h
        injection h with h1 h2
        rw [← h1, ← h2]
        exact .tmBad s i b s1 hp
      | true =>
        rw [if_pos rfl] at h
        split at h
        · cases h
        · rename_i o2 s2 he
          by_cases ho : o2 = .normal
          · rw [if_pos ho] at h
            subst ho
            injection h with h
            injection h with h1 h2
            rw [← h1, ← h2]
            exact .tm s i b s1 s2 _ _ hp (ih _ _ _ he) rfl
          · rw [if_neg ho] at h
            injection h with h
            injection h with h1 h2
            rw [← h1, ← h2]
            exact .tmRaise s i b s1 o2 s2 hp (ih _ _ _ he) ho
  | seq p q ih1 ih2 =>
    intro s o s' h
    unfold eval at h
    split at h
    · cases h
    · rename_i o1 s1 he
      by_cases ho : o1 = .normal
      · rw [if_pos ho] at h
        subst ho
        exact .seq p q s s1 o s' (ih1 _ _ _ he) (ih2 _ _ _ h)
      · rw [if_neg ho] at h
        injection h with h
        injection h with h1 h2
        rw [← h1, ← h2]
        exact .seqRaise p q s s1 o1 ho (ih1 _ _ _ he)
  | ite c p q ih1 ih2 =>
    intro s o s' h
    unfold eval at h
    split at h
    · rename_i hc
      exact .iteT c p q s o s' hc (ih1 _ _ _ h)
    · rename_i hc
      exact .iteF c p q s o s' (by simpa using hc) (ih2 _ _ _ h)
  | loop c p ih => intro s o s' h; cases h
  | tryExcept p q ih1 ih2 =>
    intro s o s' h
    unfold eval at h
    split at h
    · cases h
    · rename_i o1 s1 he
      cases o1 with
      | normal =>
        injection h with h
        injection h with h1 h2
        rw [← h1, ← h2]
        exact .tryOk p q s s1 (ih1 _ _ _ he)
      | error => exact .tryBad p q s s1 o s' (ih1 _ _ _ he) (ih2 _ _ _ h)
      | exited =>
        injection h with h
        injection h with h1 h2
        rw [← h1, ← h2]
        exact .tryGone p q s s1 (ih1 _ _ _ he)
  | _ => intro s o s' h; exact simple _ s o s' h

/-- Three ranks, seen from rank 1. -/
def three : St := initial (3, 1) []

/-- The stack, the numbers freed and the scheduler at the end. -/
def seen (r : Option (Outcome × St)) : Option (Outcome × List Comm × List Nat × Sched) := r.map fun r => (r.1, r.2.stack, r.2.freed, r.2.sched)

theorem seen_exec (p : Prog) (s : St) (o : Outcome) (st : List Comm) (fr : List Nat) (sc : Sched) (h : seen (eval p s) = some (o, st, fr, sc)) :
    ∃ s', eval p s = some (o, s') ∧ Exec p s o s' ∧ s'.stack = st ∧ s'.freed = fr ∧ s'.sched = sc := by
  unfold seen at h
  cases he : eval p s with
  | none => rw [he] at h; cases h
  | some r =>
    rw [he] at h
    obtain ⟨r1, r2⟩ := r
    simp only [Option.map_some, Option.some.injEq, Prod.mk.injEq] at h
    obtain ⟨h1, h2, h3, h4⟩ := h
    rw [h1] at he ⊢
    exact ⟨r2, rfl, eval_exec p s o r2 he, h2, h3, h4⟩

/-- A manager inside a scope inside a manager, with the settings changed on the way. -/
def nested : Prog :=
  .seq (.newTm 1 true none) <| .seq (.newTm 1 false (some .world)) <|
    .withTm 0 (.seq (.isWorker 0) <| .seq (.enter .self (.seq (.useMpi none) (.withTm 1 (.seq (.useMpi none) (.useDistributed true)))))
      (.tryExcept (.isWorker 1) .skip))

/-- C125, a case met by the theorems: nested managers end where they began, with both communicators freed. -/
theorem nested_case : Disciplined nested ∧ Uses 0 nested ∧
    ∃ s', Exec nested three .normal s' ∧ s'.stack = [.world] ∧ s'.freed = [0, 1] ∧ isWorker s' 0 = some true ∧ isWorker s' 1 = some true := by
  refine ⟨by simp [nested, Disciplined, NoScope], by simp [nested, Uses, Given], ?_⟩
  obtain ⟨s', he, hx, h1, h2, _⟩ := seen_exec nested three .normal [.world] [0, 1] .distributed (by decide +kernel)
  have e : (eval nested three).map (fun r => (isWorker r.2 0, isWorker r.2 1)) = some (some true, some true) := by decide +kernel
  rw [he] at e
  simp only [Option.map_some, Option.some.injEq, Prod.mk.injEq] at e
  exact ⟨s', hx, h1, h2, e.1, e.2⟩

/-- C125, the limit of `current_alive_partial`: a communicator pushed inside the context and left there is popped in place of the manager's, so the freed
communicator stays current; what follows fails. -/
theorem unbalanced_push : let p := Prog.seq (.newTm 1 true none) (.withTm 0 (.push .world))
    ∃ s', Exec p three .normal s' ∧ s'.stack = [.world, .other 0] ∧ s'.freed = [0] ∧ alive s' (.other 0) = false ∧ Exec .pop s' .error s' := by
  obtain ⟨s', he, hx, h1, h2, _⟩ := seen_exec (.seq (.newTm 1 true none) (.withTm 0 (.push .world))) three .normal [.world, .other 0] [0] .synchronous (by decide +kernel)
  refine ⟨s', hx, h1, h2, by unfold alive dimsOf; simp [h2], ?_⟩
  refine .act .pop s' s' false ?_
  unfold act
  have : pop s' = (s', false) := by
    unfold pop
    rw [h1]
    simp only [List.getLast?_cons_cons, List.getLast?_singleton]
    rw [if_pos (by unfold alive dimsOf; simp [h2])]
  rw [this]

/-- C125: the same happens without any unbalanced statement, when an exception leaves a `CurrentMPIComm.enter` scope and is caught inside the context. -/
theorem caught_inside : let p := Prog.seq (.newTm 1 true none) (.withTm 0 (.tryExcept (.enter .world .raise) .skip))
    ∃ s', Exec p three .normal s' ∧ s'.stack = [.world, .other 0] ∧ alive s' (.other 0) = false := by
  obtain ⟨s', he, hx, h1, h2, _⟩ := seen_exec (.seq (.newTm 1 true none) (.withTm 0 (.tryExcept (.enter .world .raise) .skip))) three .normal [.world, .other 0]
    [0] .synchronous (by decide +kernel)
  exact ⟨s', hx, h1, by unfold alive dimsOf; simp [h2]⟩

/-- C125: a manager entered twice keeps the later communicator only: the outer exit frees it again, which fails, and the first one is never freed. -/
theorem entered_twice : let p := Prog.seq (.newTm 1 true none) (.withTm 0 (.withTm 0 .skip))
    ∃ s', Exec p three .error s' ∧ s'.stack = [.world] ∧ s'.freed = [1] ∧ s'.table.length = 2 := by
  obtain ⟨s', he, hx, h1, h2, _⟩ := seen_exec (.seq (.newTm 1 true none) (.withTm 0 (.withTm 0 .skip))) three .error [.world] [1] .synchronous (by decide +kernel)
  have e : (eval (.seq (.newTm 1 true none) (.withTm 0 (.withTm 0 .skip))) three).map (fun r => r.2.table.length) = some 2 := by decide +kernel
  rw [he] at e
  exact ⟨s', hx, h1, h2, by simpa using e⟩

/-- C125: entered one after the other, a manager can be used again. -/
theorem entered_again : let p := Prog.seq (.newTm 1 true none) (.seq (.withTm 0 .skip) (.withTm 0 .skip))
    ∃ s', Exec p three .normal s' ∧ s'.stack = [.world] ∧ s'.freed = [1, 0] := by
  obtain ⟨s', he, hx, h1, h2, _⟩ := seen_exec (.seq (.newTm 1 true none) (.seq (.withTm 0 .skip) (.withTm 0 .skip))) three .normal [.world] [1, 0] .synchronous
    (by decide +kernel)
  exact ⟨s', hx, h1, h2⟩

/-- C125: settings are not undone together. After `with CurrentMPIComm.enter(SELF): use_distributed()` the communicator is again that of MPI while the
scheduler and the chunk size are those for `distributed`. -/
theorem half_distributed : ∃ s', Exec (.enter .self (.useDistributed true)) three .normal s' ∧ s'.stack = [.world] ∧ s'.sched = .distributed ∧
    s'.opts.opts chunk = some 2097152 := by
  obtain ⟨s', he, hx, h1, _, h3⟩ := seen_exec (.enter .self (.useDistributed true)) three .normal [.world] [] .distributed (by decide +kernel)
  have e : (eval (.enter .self (.useDistributed true)) three).map (fun r => r.2.opts.opts chunk) = some (some 2097152) := by decide +kernel
  rw [he] at e
  exact ⟨s', hx, h1, h3, by simpa using e⟩

/-- C125: and after `with set_options(): use_distributed()` the chunk size is the old one, with the communicator and the scheduler for `distributed`. -/
theorem half_options : ∃ s', Exec (.withOpts [] (.useDistributed true)) three .normal s' ∧ s'.stack = [.self] ∧ s'.sched = .distributed ∧
    s'.opts.opts chunk = some 100000 := by
  obtain ⟨s', he, hx, h1, _, h3⟩ := seen_exec (.withOpts [] (.useDistributed true)) three .normal [.self] [] .distributed (by decide +kernel)
  have e : (eval (.withOpts [] (.useDistributed true)) three).map (fun r => r.2.opts.opts chunk) = some (some 100000) := by decide +kernel
  rw [he] at e
  exact ⟨s', hx, h1, h3, by simpa using e⟩

/-- C125: without a client `use_distributed` fails, but the scheduler is changed. -/
theorem no_client : ∃ s', Exec (.useDistributed false) three .error s' ∧ s'.stack = [.world] ∧ s'.sched = .distributed := by
  obtain ⟨s', he, hx, h1, _, h3⟩ := seen_exec (.useDistributed false) three .error [.world] [] .distributed (by decide +kernel)
  exact ⟨s', hx, h1, h3⟩

/-- C125: a `set_options` object kept and used again restores the options of the time it was made. -/
theorem stale_object : let p := Prog.seq (.set [(chunk, 5)]) (.seq (.set [("paint_chunk_size", 7)]) (.withObj 0 .skip))
    ∃ s', Exec p three .normal s' ∧ s'.opts.opts chunk = some 100000 ∧ s'.opts.opts "paint_chunk_size" = some 4194304 := by
  have e : (eval (.seq (.set [(chunk, 5)]) (.seq (.set [("paint_chunk_size", 7)]) (.withObj 0 .skip))) three).map
      (fun r => (r.1, r.2.opts.opts chunk, r.2.opts.opts "paint_chunk_size")) = some (.normal, some 100000, some 4194304) := by decide +kernel
  cases he : eval (.seq (.set [(chunk, 5)]) (.seq (.set [("paint_chunk_size", 7)]) (.withObj 0 .skip))) three with
  | none => rw [he] at e; cases e
  | some r =>
    rw [he] at e
    obtain ⟨o, s'⟩ := r
    simp only [Option.map_some, Option.some.injEq, Prod.mk.injEq] at e
    rw [e.1] at he
    exact ⟨s', eval_exec _ _ _ _ he, e.2.1, e.2.2⟩

/-- C125: the ValueError of `is_worker` is for managers not yet entered; after the context it answers, against its message. -/
theorem is_worker_after : (∃ s', Exec (.seq (.newTm 1 true none) (.isWorker 0)) three .error s') ∧
    ∃ s', Exec (.seq (.newTm 1 true none) (.seq (.withTm 0 .skip) (.isWorker 0))) three .normal s' := by
  obtain ⟨a, _, ha, _⟩ := seen_exec (.seq (.newTm 1 true none) (.isWorker 0)) three .error [.world] [] .synchronous (by decide +kernel)
  obtain ⟨b, _, hb, _⟩ := seen_exec (.seq (.newTm 1 true none) (.seq (.withTm 0 .skip) (.isWorker 0))) three .normal [.world] [0] .synchronous (by decide +kernel)
  exact ⟨⟨a, ha⟩, ⟨b, hb⟩⟩

/-- C125: the managers cannot be nested so that the inner one takes its processes from the outer one when these have one process each. -/
theorem inner_of_one : let p := Prog.seq (.newTm 1 true none) (.withTm 0 (.newTm 1 true none))
    ∃ s', Exec p three .exited s' := by
  obtain ⟨a, _, ha, _⟩ := seen_exec (.seq (.newTm 1 true none) (.withTm 0 (.newTm 1 true none))) three .exited [.world, .other 0] [] .synchronous (by decide +kernel)
  exact ⟨a, ha⟩

/-- C125: a manager with its own scope, left normally, has freed its communicator. -/
theorem tm_frees (i : Nat) (body : Prog) (s s' : St) (hd : Disciplined body) (h : Exec (.withTm i body) s .normal s') :
    s'.stack = s.stack ∧ s.table.length < s'.table.length ∧ ∃ t, s'.tms[i]? = some t ∧ ∃ k, t.comm = some (.other k) ∧ s.table.length ≤ k ∧ alive s' (.other k) = false := by
  generalize ho : Outcome.normal = o at h
  cases h with
  | act _ _ _ _ h2 => simp [act] at h2
  | tmBad => cases ho
  | tmRaise => cases ho
  | tm _ _ _ s1 s2 _ b h hb hp =>
    have hb' : b = true := (outcome_normal b).mp ho.symm
    subst hb'
    have hst1 := enterTm_ok s s1 i h
    have hn1 : s1.stack ≠ [] := by rw [hst1]; simp
    obtain ⟨d, hbelow⟩ := disciplined_below body s1 _ s2 hb hd hn1 rfl
    rw [hst1, List.dropLast_concat] at hbelow
    have hlat := exec_later body s1 _ s2 hb
    have hex := exitTm_ok s2 s' i hp
    rw [hbelow, List.dropLast_concat] at hex
    obtain ⟨t0, g0, g1, g2⟩ : ∃ t0, s1.tms[i]? = some t0 ∧ t0.comm = some (.other s.table.length) ∧ s.table.length < s1.table.length := by
      have hx := h
      unfold enterTm at hx
      split at hx
      · cases hx
      · rename_i t00 ht00
        have hi := (List.getElem?_eq_some_iff.mp ht00).1
        split at hx
        · cases hx
        · split at hx
          · cases hx
          · injection hx with hx
            rw [← hx]
            exact ⟨_, List.getElem?_set_self hi, rfl, by simp⟩
    obtain ⟨t', e1, _, _, e4⟩ := hlat.tms i t0 g0
    obtain ⟨k', e5, e6, _⟩ := e4 _ g1 g2
    have hs' : s' = (exitTm s2 i).1 := by rw [hp]
    have same := exitTm_same s2 i
    rw [← hs'] at same
    have ht' : s'.tms[i]? = some t' := by rw [same]; exact e1
    have htab : s'.table = s2.table := by rw [same]
    refine ⟨hex, by rw [htab]; exact Nat.lt_of_lt_of_le g2 hlat.table, t', ht', k', e5, e6, ?_⟩
    have hx := hp
    unfold exitTm at hx
    rw [e1] at hx
    dsimp only at hx
    split at hx
    · cases hx
    · split at hx
      · cases hx
      · rw [e5] at hx
        dsimp only at hx
        unfold free at hx
        dsimp only at hx
        split at hx
        · injection hx with hx
          rw [← hx]
          unfold alive dimsOf
          simp
        · cases hx

end NBK.Setup
