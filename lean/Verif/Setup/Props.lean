import Verif.Setup.Model
import Verif.Options.Props
import Mathlib.Tactic.Push
set_option linter.unusedSimpArgs false
/-!
# C125: the settings of a process
-/
namespace NBK.Setup

theorem outcome_ne (b : Bool) : outcome b ≠ .exited := by cases b <;> simp [outcome]

theorem outcome_normal (b : Bool) : outcome b = .normal ↔ b = true := by cases b <;> simp [outcome]

theorem outcome_inj (a b : Bool) (h : outcome a = outcome b) : a = b := by cases a <;> cases b <;> simp [outcome] at h ⊢

/-- The semantics is deterministic. -/
theorem exec_unique (p : Prog) (s : St) (o : Outcome) (s' : St) (h : Exec p s o s') : ∀ o2 s2, Exec p s o2 s2 → o2 = o ∧ s2 = s' := by
  induction h with
  | act p s s' b h =>
    intro o2 s2 h2
    cases h2 with
    | act _ _ _ b2 h2 =>
      rw [h] at h2
      injection h2 with h2
      injection h2 with h3 h4
      exact ⟨by rw [h4], h3.symm⟩
    | _ => simp [act] at h
  | withOpts s kw body o s' h hb ih =>
    intro o2 s2 h2
    cases h2 with
    | act _ _ _ _ h2 => simp [act] at h2
    | withOpts _ _ _ _ s3 _ hb2 =>
      obtain ⟨e1, e2⟩ := ih _ _ hb2
      exact ⟨e1, by rw [e2]⟩
    | withBad _ _ _ hx => rw [h] at hx; cases hx
  | withBad s kw body h =>
    intro o2 s2 h2
    cases h2 with
    | act _ _ _ _ h2 => simp [act] at h2
    | withOpts _ _ _ _ s3 hx hb2 => rw [h] at hx; cases hx
    | withBad => exact ⟨rfl, rfl⟩
  | withObj s i body o s' old h hb ih =>
    intro o2 s2 h2
    cases h2 with
    | act _ _ _ _ h2 => simp [act] at h2
    | withObj _ _ _ _ s3 old2 hx hb2 =>
      obtain ⟨e1, e2⟩ := ih _ _ hb2
      rw [h] at hx
      injection hx with hx
      exact ⟨e1, by rw [e2, hx]⟩
  | enterBad s c body s' h =>
    intro o2 s2 h2
    cases h2 with
    | act _ _ _ _ h2 => simp [act] at h2
    | enterBad _ _ _ _ hx => rw [h] at hx; injection hx with hx; exact ⟨rfl, hx.symm⟩
    | enter _ _ _ s1 s2' _ b hx => rw [h] at hx; injection hx with _ hx; cases hx
    | enterRaise _ _ _ s1 _ _ hx => rw [h] at hx; injection hx with _ hx; cases hx
  | enter s c body s1 s2 s' b h hb hp ih =>
    intro o2 s3 h2
    cases h2 with
    | act _ _ _ _ h2 => simp [act] at h2
    | enterBad _ _ _ _ hx => rw [h] at hx; injection hx with _ hx; cases hx
    | enter _ _ _ s1' s2' _ b' hx hb2 hp2 =>
      rw [h] at hx; injection hx with hx _
      subst hx
      obtain ⟨_, e2⟩ := ih _ _ hb2
      subst e2
      rw [hp] at hp2
      injection hp2 with e3 e4
      exact ⟨by rw [e4], e3.symm⟩
    | enterRaise _ _ _ s1' _ _ hx hb2 ho =>
      rw [h] at hx; injection hx with hx _
      subst hx
      exact absurd (ih _ _ hb2).1 ho
  | enterRaise s c body s1 o s' h hb ho ih =>
    intro o2 s3 h2
    cases h2 with
    | act _ _ _ _ h2 => simp [act] at h2
    | enterBad _ _ _ _ hx => rw [h] at hx; injection hx with _ hx; cases hx
    | enter _ _ _ s1' s2' _ b' hx hb2 hp2 =>
      rw [h] at hx; injection hx with hx _
      subst hx
      exact absurd (ih _ _ hb2).1.symm ho
    | enterRaise _ _ _ s1' _ _ hx hb2 ho2 =>
      rw [h] at hx; injection hx with hx _
      subst hx
      exact ih _ _ hb2
  | tmBad s i body s' h =>
    intro o2 s2 h2
    cases h2 with
    | act _ _ _ _ h2 => simp [act] at h2
    | tmBad _ _ _ _ hx => rw [h] at hx; injection hx with hx; exact ⟨rfl, hx.symm⟩
    | tm _ _ _ s1 s2' _ b hx => rw [h] at hx; injection hx with _ hx; cases hx
    | tmRaise _ _ _ s1 _ _ hx => rw [h] at hx; injection hx with _ hx; cases hx
  | tm s i body s1 s2 s' b h hb hp ih =>
    intro o2 s3 h2
    cases h2 with
    | act _ _ _ _ h2 => simp [act] at h2
    | tmBad _ _ _ _ hx => rw [h] at hx; injection hx with _ hx; cases hx
    | tm _ _ _ s1' s2' _ b' hx hb2 hp2 =>
      rw [h] at hx; injection hx with hx _
      subst hx
      obtain ⟨_, e2⟩ := ih _ _ hb2
      subst e2
      rw [hp] at hp2
      injection hp2 with e3 e4
      exact ⟨by rw [e4], e3.symm⟩
    | tmRaise _ _ _ s1' _ _ hx hb2 ho =>
      rw [h] at hx; injection hx with hx _
      subst hx
      exact absurd (ih _ _ hb2).1 ho
  | tmRaise s i body s1 o s' h hb ho ih =>
    intro o2 s3 h2
    cases h2 with
    | act _ _ _ _ h2 => simp [act] at h2
    | tmBad _ _ _ _ hx => rw [h] at hx; injection hx with _ hx; cases hx
    | tm _ _ _ s1' s2' _ b' hx hb2 hp2 =>
      rw [h] at hx; injection hx with hx _
      subst hx
      exact absurd (ih _ _ hb2).1.symm ho
    | tmRaise _ _ _ s1' _ _ hx hb2 ho2 =>
      rw [h] at hx; injection hx with hx _
      subst hx
      exact ⟨rfl, (ih _ _ hb2).2⟩
  | seq p q s s' o s'' hp hq ih1 ih2 =>
    intro o2 s2 h2
    cases h2 with
    | act _ _ _ _ h2 => simp [act] at h2
    | seq _ _ _ s3 _ _ hp2 hq2 =>
      obtain ⟨_, e⟩ := ih1 _ _ hp2
      subst e
      exact ih2 _ _ hq2
    | seqRaise _ _ _ _ _ ho hp2 => exact absurd (ih1 _ _ hp2).1 ho
  | seqRaise p q s s' o ho hp ih =>
    intro o2 s2 h2
    cases h2 with
    | act _ _ _ _ h2 => simp [act] at h2
    | seq _ _ _ s3 _ _ hp2 hq2 => exact absurd (ih _ _ hp2).1.symm ho
    | seqRaise _ _ _ _ _ _ hp2 => exact ih _ _ hp2
  | iteT c p q s o s' h hp ih =>
    intro o2 s2 h2
    cases h2 with
    | act _ _ _ _ h2 => simp [act] at h2
    | iteT _ _ _ _ _ _ _ hp2 => exact ih _ _ hp2
    | iteF _ _ _ _ _ _ hx => rw [h] at hx; cases hx
  | iteF c p q s o s' h hp ih =>
    intro o2 s2 h2
    cases h2 with
    | act _ _ _ _ h2 => simp [act] at h2
    | iteT _ _ _ _ _ _ hx => rw [h] at hx; cases hx
    | iteF _ _ _ _ _ _ _ hp2 => exact ih _ _ hp2
  | loopEnd c p s h =>
    intro o2 s2 h2
    cases h2 with
    | act _ _ _ _ h2 => simp [act] at h2
    | loopEnd => exact ⟨rfl, rfl⟩
    | loopStep _ _ _ _ _ _ hx => rw [h] at hx; cases hx
    | loopRaise _ _ _ _ _ hx => rw [h] at hx; cases hx
  | loopStep c p s s' o s'' h hp hl ih1 ih2 =>
    intro o2 s2 h2
    cases h2 with
    | act _ _ _ _ h2 => simp [act] at h2
    | loopEnd _ _ _ hx => rw [h] at hx; cases hx
    | loopStep _ _ _ s3 _ _ _ hp2 hl2 =>
      obtain ⟨_, e⟩ := ih1 _ _ hp2
      subst e
      exact ih2 _ _ hl2
    | loopRaise _ _ _ _ _ _ ho hp2 => exact absurd (ih1 _ _ hp2).1 ho
  | loopRaise c p s s' o h ho hp ih =>
    intro o2 s2 h2
    cases h2 with
    | act _ _ _ _ h2 => simp [act] at h2
    | loopEnd _ _ _ hx => rw [h] at hx; cases hx
    | loopStep _ _ _ s3 _ _ _ hp2 hl2 => exact absurd (ih _ _ hp2).1.symm ho
    | loopRaise _ _ _ _ _ _ _ hp2 => exact ih _ _ hp2
  | tryOk p q s s' hp ih =>
    intro o2 s2 h2
    cases h2 with
    | act _ _ _ _ h2 => simp [act] at h2
    | tryOk _ _ _ _ hp2 => exact ⟨rfl, (ih _ _ hp2).2⟩
    | tryBad _ _ _ _ _ _ hp2 => exact absurd (ih _ _ hp2).1 (by decide)
    | tryGone _ _ _ _ hp2 => exact absurd (ih _ _ hp2).1 (by decide)
  | tryBad p q s s' o s'' hp hq ih1 ih2 =>
    intro o2 s2 h2
    cases h2 with
    | act _ _ _ _ h2 => simp [act] at h2
    | tryOk _ _ _ _ hp2 => exact absurd (ih1 _ _ hp2).1 (by decide)
    | tryBad _ _ _ _ _ _ hp2 hq2 =>
      obtain ⟨_, e⟩ := ih1 _ _ hp2
      subst e
      exact ih2 _ _ hq2
    | tryGone _ _ _ _ hp2 => exact absurd (ih1 _ _ hp2).1 (by decide)
  | tryGone p q s s' hp ih =>
    intro o2 s2 h2
    cases h2 with
    | act _ _ _ _ h2 => simp [act] at h2
    | tryOk _ _ _ _ hp2 => exact absurd (ih _ _ hp2).1 (by decide)
    | tryBad _ _ _ _ _ _ hp2 => exact absurd (ih _ _ hp2).1 (by decide)
    | tryGone _ _ _ _ hp2 => exact ⟨rfl, (ih _ _ hp2).2⟩

/-! ## The two modes -/

theorem chunk_update (o : String → Option Nat) (n : Nat) (k : String) : Options.update o [(chunk, n)] k = if k = chunk then some n else o k := rfl

theorem setChunk_opts (s : St) (n : Nat) : (setChunk s n).opts = ⟨fun k => if k = chunk then some n else s.opts.opts k, s.opts.cacheBytes⟩ := by
  unfold setChunk Options.setOptions
  have : (List.any [(chunk, n)] fun p => decide (p.1 = Options.gcs)) = false := by
    have hc : chunk ≠ Options.gcs := by decide
    simp [hc]
  dsimp only
  rw [if_neg (by rw [this]; simp)]
  rfl

/-- C125: `use_mpi` sets the current communicator (`COMM_WORLD` if none is given), the synchronous scheduler and a chunk size of 102400, and nothing else. -/
theorem use_mpi_effect (c : Option Comm) (s : St) (o : Outcome) (s' : St) (h : Exec (.useMpi c) s o s') :
    o = .normal ∧ s'.stack.getLast? = some (c.getD .world) ∧ s'.stack.dropLast = s.stack.dropLast ∧ s'.sched = .synchronous ∧
      s'.opts.opts chunk = some 102400 ∧ (∀ k, k ≠ chunk → s'.opts.opts k = s.opts.opts k) ∧ s'.opts.cacheBytes = s.opts.cacheBytes ∧
      s'.pickles = s.pickles ∧ s'.handlers = s.handlers ∧ s'.level = s.level ∧ s'.freed = s.freed ∧ s'.tms = s.tms := by
  cases h with
  | act _ _ _ b h =>
    injection h with h
    injection h with h1 h2
    subst h1
    subst h2
    have e := setChunk_opts (setTop { s with sched := .synchronous } (c.getD .world)) (1024 * 100)
    refine ⟨rfl, ?_, ?_, rfl, ?_, ?_, ?_, rfl, rfl, rfl, rfl, rfl⟩
    · show (s.stack.dropLast ++ [c.getD .world]).getLast? = _
      rw [List.getLast?_concat]
    · show (s.stack.dropLast ++ [c.getD .world]).dropLast = _
      rw [List.dropLast_concat]
    · unfold useMpi
      rw [e]
      rfl
    · intro k hk
      unfold useMpi
      rw [e]
      dsimp only
      rw [if_neg hk]
      rfl
    · unfold useMpi
      rw [e]
      rfl

/-- C125: with a client `use_distributed` sets the current communicator to `COMM_SELF`, the distributed scheduler and a chunk size of 2097152 and makes
communicators picklable; without one it is an error, and only the scheduler is changed. -/
theorem use_distributed_effect (client : Bool) (s : St) (o : Outcome) (s' : St) (h : Exec (.useDistributed client) s o s') :
    s'.sched = .distributed ∧ s'.stack.dropLast = s.stack.dropLast ∧ (∀ k, k ≠ chunk → s'.opts.opts k = s.opts.opts k) ∧
      s'.opts.cacheBytes = s.opts.cacheBytes ∧ s'.handlers = s.handlers ∧ s'.level = s.level ∧ s'.freed = s.freed ∧ s'.tms = s.tms ∧
      (client = true → o = .normal ∧ s'.stack.getLast? = some .self ∧ s'.opts.opts chunk = some 2097152 ∧ s'.pickles = true) ∧
      (client = false → o = .error ∧ s' = { s with sched := .distributed }) := by
  cases h with
  | act _ _ _ b h =>
    injection h with h
    cases client with
    | false =>
      injection h with h1 h2
      subst h1
      subst h2
      exact ⟨rfl, rfl, fun _ _ => rfl, rfl, rfl, rfl, rfl, rfl, fun hx => (by cases hx), fun _ => ⟨rfl, rfl⟩⟩
    | true =>
      injection h with h1 h2
      subst h1
      subst h2
      have e := setChunk_opts { setTop { s with sched := .distributed } .self with pickles := true } (1024 * 1024 * 2)
      refine ⟨rfl, ?_, ?_, ?_, rfl, rfl, rfl, rfl, fun _ => ⟨rfl, ?_, ?_, rfl⟩, fun hx => (by cases hx)⟩
      · show (s.stack.dropLast ++ [Comm.self]).dropLast = _
        rw [List.dropLast_concat]
      · intro k hk
        show (setupDistributed { s with sched := .distributed }).opts.opts k = _
        unfold setupDistributed
        rw [e]
        dsimp only
        rw [if_neg hk]
        rfl
      · show (setupDistributed { s with sched := .distributed }).opts.cacheBytes = _
        unfold setupDistributed
        rw [e]
        rfl
      · show (s.stack.dropLast ++ [Comm.self]).getLast? = _
        rw [List.getLast?_concat]
      · show (setupDistributed { s with sched := .distributed }).opts.opts chunk = _
        unfold setupDistributed
        rw [e]
        rfl

/-- The default chunk size is not the one of `use_mpi`. -/
theorem use_mpi_not_default (dims : Nat × Nat) (table : List (Nat × Nat)) :
    (initial dims table).opts.opts chunk = some 100000 ∧ (useMpi (initial dims table) none).opts.opts chunk ≠ (initial dims table).opts.opts chunk := by
  have h0 : (initial dims table).opts.opts chunk = some 100000 := by
    unfold initial
    dsimp only
    rw [if_neg (by decide), if_pos rfl]
  have h1 := use_mpi_effect none (initial dims table) .normal _ (Exec.act _ _ _ true rfl)
  exact ⟨h0, by rw [h1.2.2.2.2.1, h0]; decide⟩

/-! ## Pickling -/

/-- C125: what is pickled comes back as the same communicator, a freed one as `COMM_NULL`. -/
theorem pickle_roundtrip (s : St) (c : Comm) (n : String) (h : commPickle s c = some n) :
    unpickle n = some c ∨ (alive s c = false ∧ unpickle n = some .null) := by
  unfold commPickle at h
  by_cases h1 : c = .null ∨ (∃ i ∈ s.freed, c = .other i)
  · rw [if_pos h1] at h
    injection h with h
    subst h
    rcases h1 with rfl | ⟨i, hi, rfl⟩
    · exact Or.inl (by decide)
    · refine Or.inr ⟨?_, by decide⟩
      unfold alive dimsOf
      simp [hi]
  · rw [if_neg h1] at h
    by_cases h2 : c = .self
    · rw [if_pos h2] at h
      injection h with h
      subst h
      exact Or.inl (by rw [h2]; decide)
    · rw [if_neg h2] at h
      by_cases h3 : c = .world
      · rw [if_pos h3] at h
        injection h with h
        subst h
        exact Or.inl (by rw [h3]; decide)
      · rw [if_neg h3] at h
        cases h

/-- C125: a communicator that can be used is picklable just if it is `COMM_SELF` or `COMM_WORLD`; those of a `TaskManager` are not. -/
theorem pickle_which (s : St) (c : Comm) (h : alive s c = true) : (commPickle s c).isSome = true ↔ c = .self ∨ c = .world := by
  unfold commPickle
  have h1 : ¬ (c = .null ∨ (∃ i ∈ s.freed, c = .other i)) := by
    rintro (rfl | ⟨i, hi, rfl⟩)
    · cases h
    · unfold alive dimsOf at h
      simp [hi] at h
  rw [if_neg h1]
  by_cases h2 : c = .self
  · rw [if_pos h2]
    simp [h2]
  · rw [if_neg h2]
    by_cases h3 : c = .world
    · rw [if_pos h3]
      simp [h3]
    · rw [if_neg h3]
      simp [h2, h3]

/-! ## Invariants of all programs -/

/-- A property of states that every statement keeps is kept by every program. -/
theorem exec_invariant (P : St → Prop) (hact : ∀ s p s' b, act s p = some (s', b) → P s → P s')
    (hset : ∀ s kw, Options.unknown s.opts kw = false → P s → P { s with opts := Options.setOptions s.opts kw, saved := s.saved ++ [s.opts.opts] })
    (hexit : ∀ s s' (kw : List (String × Nat)), P s → P s' → P { s' with opts := Options.exitOptions s.opts.opts s'.opts })
    (hobj : ∀ (s s' : St) (i : Nat) old, P s → P s' → s.saved[i]? = some old → P { s' with opts := Options.exitOptions old s'.opts })
    (hpush : ∀ s c, P s → P (push s c).1) (hpop : ∀ s, P s → P (pop s).1) (hent : ∀ s i, P s → P (enterTm s i).1) (hext : ∀ s i, P s → P (exitTm s i).1)
    (p : Prog) (s : St) (o : Outcome) (s' : St) (h : Exec p s o s') : P s → P s' := by
  induction h with
  | act p s s' b h => exact hact s p s' b h
  | withOpts s kw body o s' h hb ih => exact fun hs => hexit s s' kw hs (ih (hset s kw h hs))
  | withBad => exact id
  | withObj s i body o s' old h hb ih => exact fun hs => hobj s s' i old hs (ih hs) h
  | enterBad s c body s' h => exact fun hs => by have := hpush s c hs; rw [h] at this; exact this
  | enter s c body s1 s2 s' b h hb hp ih =>
    intro hs
    have h1 := hpush s c hs
    rw [h] at h1
    have h2 := hpop s2 (ih h1)
    rw [hp] at h2
    exact h2
  | enterRaise s c body s1 o s' h hb ho ih =>
    intro hs
    have h1 := hpush s c hs
    rw [h] at h1
    exact ih h1
  | tmBad s i body s' h => exact fun hs => by have := hent s i hs; rw [h] at this; exact this
  | tm s i body s1 s2 s' b h hb hp ih =>
    intro hs
    have h1 := hent s i hs
    rw [h] at h1
    have h2 := hext s2 i (ih h1)
    rw [hp] at h2
    exact h2
  | tmRaise s i body s1 o s' h hb ho ih =>
    intro hs
    have h1 := hent s i hs
    rw [h] at h1
    exact ih h1
  | seq p q s s' o s'' hp hq ih1 ih2 => exact fun hs => ih2 (ih1 hs)
  | seqRaise p q s s' o ho hp ih => exact ih
  | iteT c p q s o s' h hp ih => exact ih
  | iteF c p q s o s' h hp ih => exact ih
  | loopEnd => exact id
  | loopStep c p s s' o s'' h hp hl ih1 ih2 => exact fun hs => ih2 (ih1 hs)
  | loopRaise c p s s' o h ho hp ih => exact ih
  | tryOk p q s s' hp ih => exact ih
  | tryBad p q s s' o s'' hp hq ih1 ih2 => exact fun hs => ih2 (ih1 hs)
  | tryGone p q s s' hp ih => exact ih

/-- What the calls on communicators leave alone. -/
theorem pop_same (s : St) : (pop s).1 = { s with stack := (pop s).1.stack } := by
  unfold pop
  split
  · rfl
  · split
    · rfl
    · dsimp only
      split <;> rfl

theorem free_same (s : St) (c : Comm) : (free s c).1 = { s with freed := (free s c).1.freed } := by
  unfold free
  split
  · split <;> rfl
  · rfl

theorem exitTm_same (s : St) (i : Nat) : (exitTm s i).1 = { s with stack := (exitTm s i).1.stack, freed := (exitTm s i).1.freed } := by
  unfold exitTm
  split
  · rfl
  · split
    · rfl
    · have h := pop_same s
      cases hp : pop s with
      | mk s1 b =>
        rw [hp] at h
        dsimp only at h
        cases b with
        | false =>
          dsimp only
          rw [h]
        | true =>
          dsimp only
          split
          · rw [h]
          · rename_i c _
            have h2 := free_same s1 c
            rw [h2, h]

theorem enterTm_same (s : St) (i : Nat) : (enterTm s i).1 = { s with stack := (enterTm s i).1.stack, table := (enterTm s i).1.table, tms := (enterTm s i).1.tms } := by
  unfold enterTm
  split
  · rfl
  · split
    · rfl
    · split
      · rfl
      · rfl

theorem newTm_same (s : St) (n : Nat) (a : Bool) (c : Option Comm) : (newTm s n a c).1 = { s with tms := (newTm s n a c).1.tms } := by
  unfold newTm
  split
  · rfl
  · split
    · rfl
    · split <;> rfl

theorem set_same (s : St) (c : Comm) : (set s c).1 = { s with stack := (set s c).1.stack } := by
  unfold set
  split
  · rfl
  · split <;> rfl

/-- A property of the options (with their copies) and of the logging is kept by the calls on communicators and task managers. -/
theorem settings_invariant (P : Options.St Nat → List (String → Option Nat) → Nat → Bool → Prop)
    (hset : ∀ o l h b kw, Options.unknown o kw = false → P o l h b → P (Options.setOptions o kw) (l ++ [o.opts]) h b)
    (hchunk : ∀ (s : St) n, P s.opts s.saved s.handlers s.ours → P (setChunk s n).opts (setChunk s n).saved s.handlers s.ours)
    (hlog : ∀ o l h, P o l h false → P o l (h + 1) true)
    (hexit : ∀ o l h b o' l' h' b', P o l h b → P o' l' h' b' → P (Options.exitOptions o.opts o') l' h' b')
    (hobj : ∀ o l h b o' l' h' b' (i : Nat) old, P o l h b → P o' l' h' b' → l[i]? = some old → P (Options.exitOptions old o') l' h' b')
    (p : Prog) (s : St) (o : Outcome) (s' : St) (h : Exec p s o s') (hs : P s.opts s.saved s.handlers s.ours) :
    P s'.opts s'.saved s'.handlers s'.ours := by
  refine exec_invariant (fun s => P s.opts s.saved s.handlers s.ours) ?_ ?_ ?_ ?_ ?_ ?_ ?_ ?_ p s o s' h hs
  · intro s p s' b h hs
    cases p <;> simp only [act, Option.some.injEq, reduceCtorEq] at h
    case skip => injection h with h; rw [← h]; exact hs
    case raise => injection h with h; rw [← h]; exact hs
    case useMpi c =>
      injection h with h
      rw [← h]
      exact hchunk (setTop { s with sched := .synchronous } (c.getD .world)) _ hs
    case useDistributed c =>
      unfold useDistributed at h
      cases c with
      | false => injection h with h; rw [← h]; exact hs
      | true =>
        injection h with h
        rw [← h]
        exact hchunk { setTop { s with sched := .distributed } .self with pickles := true } _ hs
    case logging l =>
      have e : s' = (setupLogging s l).1 := by rw [h]
      rw [e]
      unfold setupLogging
      cases ho : s.ours with
      | true =>
        rw [if_pos rfl]
        rw [ho] at hs
        cases l with
        | none => dsimp only; rw [ho]; exact hs
        | some l => dsimp only; rw [ho]; exact hs
      | false =>
        rw [if_neg (by simp)]
        rw [ho] at hs
        cases l with
        | none => exact hlog _ _ _ hs
        | some l => exact hlog _ _ _ hs
    case set kw =>
      by_cases hu : Options.unknown s.opts kw = true
      · rw [if_pos hu] at h
        injection h with h
        rw [← h]
        exact hs
      · rw [if_neg hu] at h
        injection h with h
        rw [← h]
        exact hset _ _ _ _ kw (by simpa using hu) hs
    case push c => injection h with h; rw [← h]; exact hs
    case pop =>
      have e : s' = (pop s).1 := by rw [h]
      rw [e, pop_same]
      exact hs
    case setComm c =>
      have e : s' = (set s c).1 := by rw [h]
      rw [e, set_same]
      exact hs
    case newTm n a c =>
      have e : s' = (newTm s n a c).1 := by rw [h]
      rw [e, newTm_same]
      exact hs
    case isWorker i => injection h with h; rw [← h]; exact hs
  · intro s kw hk hs
    exact hset _ _ _ _ kw hk hs
  · intro s s' kw hs hs'
    exact hexit _ _ _ _ _ _ _ _ hs hs'
  · intro s s' i old hs hs' hi
    exact hobj _ _ _ _ _ _ _ _ i old hs hs' hi
  · intro s c hs
    exact hs
  · intro s hs
    rw [pop_same]
    exact hs
  · intro s i hs
    rw [enterTm_same]
    exact hs
  · intro s i hs
    rw [exitTm_same]
    exact hs

/-- C125: however often `setup_logging` is called, the root logger has one handler of nbodykit. -/
theorem one_handler (dims : Nat × Nat) (table : List (Nat × Nat)) (p : Prog) (o : Outcome) (s' : St) (h : Exec p (initial dims table) o s') :
    s'.handlers ≤ 1 ∧ (s'.handlers = 1 ↔ s'.ours = true) := by
  have key := settings_invariant (fun _ _ h b => h = if b then 1 else 0) (fun _ _ _ _ _ _ hs => hs) (fun _ _ hs => hs) (fun _ _ h hs => by
    simp at hs
    simp [hs]) (fun _ _ _ _ _ _ _ _ _ hs => hs) (fun _ _ _ _ _ _ _ _ _ _ _ hs _ => hs) p _ o s' h rfl
  cases hb : s'.ours with
  | true => rw [hb] at key; simp at key; simp [key]
  | false => rw [hb] at key; simp at key; simp [key]

/-- C125: a known level is set and an unknown one is an error, after the handler has been installed. -/
theorem logging_effect (l : Option Level) (s : St) (o : Outcome) (s' : St) (h : Exec (.logging l) s o s') :
    s'.ours = true ∧ (s.ours = true → s'.handlers = s.handlers) ∧ (s.ours = false → s'.handlers = s.handlers + 1) ∧
      (∀ v, l = some v → o = .normal ∧ s'.level = v) ∧ (l = none → o = .error ∧ s'.level = s.level) := by
  cases h with
  | act _ _ _ b h =>
    injection h with h
    unfold setupLogging at h
    cases ho : s.ours with
    | true =>
      rw [ho, if_pos rfl] at h
      cases l with
      | none =>
        injection h with h1 h2
        subst h1; subst h2
        exact ⟨ho, fun _ => rfl, fun hx => (by cases hx), fun _ hx => (by cases hx), fun _ => ⟨rfl, rfl⟩⟩
      | some v =>
        injection h with h1 h2
        subst h1; subst h2
        exact ⟨ho, fun _ => rfl, fun hx => (by cases hx), fun _ hx => (by injection hx with hx; exact ⟨rfl, hx⟩), fun hx => (by cases hx)⟩
    | false =>
      rw [ho, if_neg (by simp)] at h
      cases l with
      | none =>
        injection h with h1 h2
        subst h1; subst h2
        exact ⟨rfl, fun hx => (by cases hx), fun _ => rfl, fun _ hx => (by cases hx), fun _ => ⟨rfl, rfl⟩⟩
      | some v =>
        injection h with h1 h2
        subst h1; subst h2
        exact ⟨rfl, fun hx => (by cases hx), fun _ => rfl, fun _ hx => (by injection hx with hx; exact ⟨rfl, hx⟩), fun hx => (by cases hx)⟩

/-- C125: after every program the cache has the size of the option, and the options are those that exist at import. -/
theorem cache_and_names (dims : Nat × Nat) (table : List (Nat × Nat)) (p : Prog) (o : Outcome) (s' : St) (h : Exec p (initial dims table) o s') :
    s'.opts.opts Options.gcs = some s'.opts.cacheBytes ∧ ∀ k, (s'.opts.opts k).isSome = (k = Options.gcs ∨ k = chunk ∨ k = "paint_chunk_size") := by
  let N : (String → Option Nat) → Prop := fun f => ∀ k, (f k).isSome = decide (k = Options.gcs ∨ k = chunk ∨ k = "paint_chunk_size")
  have upd : ∀ (f : String → Option Nat) (kw : List (String × Nat)), N f → (∀ q ∈ kw, (f q.1).isSome = true) → N (Options.update f kw) := by
    intro f kw
    induction kw generalizing f with
    | nil => exact fun hf _ => hf
    | cons q kw ih =>
      intro hf hk
      have hf' : N fun k => if k = q.1 then some q.2 else f k := by
        intro k
        by_cases hx : k = q.1
        · have := hk q List.mem_cons_self
          rw [← hf k, hx, this]
          simp
        · rw [← hf k]
          simp [hx]
      refine ih _ hf' fun r hr => ?_
      rw [hf' r.1, ← hf r.1]
      exact hk r (List.mem_cons_of_mem _ hr)
  have sopts : ∀ (o : Options.St Nat) kw, (Options.setOptions o kw).opts = Options.update o.opts kw := by
    intro o kw
    unfold Options.setOptions
    dsimp only
    split <;> rfl
  have cons : ∀ (f : String → Option Nat) (o : Options.St Nat), N f → Options.Consistent (Options.exitOptions f o) := by
    intro f o hf
    have := hf Options.gcs
    unfold Options.Consistent Options.exitOptions
    cases hg : f Options.gcs with
    | none => rw [hg] at this; simp at this
    | some v => simp [hg]
  have key := settings_invariant (fun o l _ _ => Options.Consistent o ∧ N o.opts ∧ ∀ f ∈ l, N f)
    (by
      rintro o l _ _ kw hk ⟨h1, h2, h3⟩
      refine ⟨Options.setOptions_consistent o kw h1, ?_, ?_⟩
      · rw [sopts]
        refine upd _ _ h2 fun q hq => ?_
        unfold Options.unknown at hk
        have := List.any_eq_false.mp hk q hq
        cases hx : o.opts q.1 with
        | none => rw [hx] at this; simp at this
        | some v => rfl
      · intro f hf
        rcases List.mem_append.mp hf with hf | hf
        · exact h3 f hf
        · rw [List.mem_singleton.mp hf]; exact h2)
    (by
      rintro s n ⟨h1, h2, h3⟩
      rw [setChunk_opts]
      refine ⟨?_, ?_, ?_⟩
      · unfold Options.Consistent at h1 ⊢
        dsimp only
        rw [if_neg (by decide)]
        exact h1
      · intro k
        dsimp only
        by_cases hx : k = chunk
        · rw [if_pos hx, hx]; rfl
        · rw [if_neg hx]; exact h2 k
      · intro f hf
        rcases List.mem_append.mp hf with hf | hf
        · exact h3 f hf
        · rw [List.mem_singleton.mp hf]; exact h2)
    (fun _ _ _ hs => hs)
    (fun o l h b o' l' h' b' hs hs' => ⟨cons _ _ hs.2.1, hs.2.1, hs'.2.2⟩)
    (fun o l h b o' l' h' b' i old hs hs' hi => ⟨cons _ _ (hs.2.2 _ (List.mem_of_getElem? hi)), hs.2.2 _ (List.mem_of_getElem? hi), hs'.2.2⟩)
    p _ o s' h (by
      have hN : N (initial dims table).opts.opts := by
        intro k
        show (if k = Options.gcs then some 100000000 else if k = chunk then some 100000
          else if k = "paint_chunk_size" then some (1024 * 1024 * 4) else none : Option Nat).isSome = _
        by_cases h1 : k = Options.gcs
        · rw [if_pos h1]; simp [h1]
        · rw [if_neg h1]
          by_cases h2 : k = chunk
          · rw [if_pos h2]; simp [h2]
          · rw [if_neg h2]
            by_cases h3 : k = "paint_chunk_size"
            · rw [if_pos h3]; simp [h3]
            · rw [if_neg h3]; simp [h1, h2, h3]
      exact ⟨rfl, hN, fun f hf => by cases hf⟩)
  refine ⟨key.1, fun k => ?_⟩
  rw [key.2.1 k]
  simp

end NBK.Setup
