import Verif.Setup.Cluster
import Mathlib.Tactic.Push
/-!
# `use_distributed` in several clients (C126)
-/
set_option linter.unusedSimpArgs false
namespace NBK.Setup.Cluster

theorem run_invariant (P : State → Prop) (Q : Act → Prop) (hstep : ∀ s a s', Q a → P s → step s a = some s' → P s') (s : State) (l : List Act) (s' : State)
    (h : Run s l s') : (∀ a ∈ l, Q a) → P s → P s' := by
  induction h with
  | nil => exact fun _ h => h
  | cons s a s' l s'' h hr ih =>
    intro hl hp
    exact ih (fun b hb => hl b (List.mem_cons_of_mem _ hb)) (hstep s a s' (hl a List.mem_cons_self) hp h)

theorem run_append (s : State) (l : List Act) (s' : State) (h : Run s l s') (m : List Act) (s'' : State) (h' : Run s' m s'') : Run s (l ++ m) s'' := by
  induction h with
  | nil => exact h'
  | cons s a s1 l s2 h hr ih => exact .cons s a s1 _ _ h (ih h')

/-- How many clients are about to register. -/
def registering (s : State) : Nat := s.clients.countP fun c => c.phase = .register

theorem countP_set (p : Client → Bool) (l : List Client) (i : Nat) (c d : Client) (h : l[i]? = some c) :
    (l.set i d).countP p + (if p c then 1 else 0) = l.countP p + (if p d then 1 else 0) := by
  induction l generalizing i with
  | nil => cases h
  | cons x xs ih =>
    cases i with
    | zero =>
      simp only [List.getElem?_cons_zero, Option.some.injEq] at h
      subst h
      simp only [List.set_cons_zero, List.countP_cons]
      omega
    | succ j =>
      simp only [List.getElem?_cons_succ] at h
      simp only [List.set_cons_succ, List.countP_cons]
      have := ih j h
      omega

/-- A step, taken apart. -/
theorem step_cases (s s' : State) (a : Act) (h : step s a = some s') :
    (a = .join ∧ s' = { s with workers := s.workers ++ [s.callbacks] }) ∨
    ∃ i c d t, s.clients[i]? = some c ∧ a.who = some i ∧ serve s c a = some (t, d) ∧ s' = { t with clients := s.clients.set i d } := by
  unfold step at h
  split at h
  · rename_i hw
    cases a <;> simp [Act.who] at hw
    injection h with h
    exact Or.inl ⟨rfl, h.symm⟩
  · rename_i i hw
    split at h
    · cases h
    · rename_i c hc
      cases hs : serve s c a with
      | none => rw [hs] at h; cases h
      | some r =>
        rw [hs] at h
        injection h with h
        exact Or.inr ⟨i, c, r.2, r.1, hc, hw, hs, h.symm⟩

/-- What `serve` does to the scheduler and the client. -/
theorem serve_cases (s t : State) (c d : Client) (a : Act) (h : serve s c a = some (t, d)) :
    (∃ i, a = .acquire i ∧ c.phase = .waiting ∧ s.lock = none ∧ t = { s with lock := some i } ∧ d = { c with phase := .check, locked := true }) ∨
    (∃ i, a = .timeout i ∧ c.phase = .waiting ∧ s.lock ≠ none ∧ t = s ∧ d = { c with phase := .check, locked := false }) ∨
    (∃ i, a = .list i ∧ c.phase = .check ∧ t = s ∧ d = { c with phase := if s.dataset then .finish else .publish }) ∨
    (∃ i, a = .publish i ∧ c.phase = .publish ∧ s.dataset = true ∧ t = s ∧ d = { c with phase := .finish, keyError := true }) ∨
    (∃ i, a = .publish i ∧ c.phase = .publish ∧ s.dataset = false ∧ t = { s with dataset := true } ∧ d = { c with phase := .register }) ∨
    (∃ i, a = .register i ∧ c.phase = .register ∧ t = { s with callbacks := s.callbacks + 1, workers := s.workers.map (· + 1) } ∧ d = { c with phase := .finish }) ∨
    (∃ i, a = .release i ∧ c.phase = .finish ∧ t = (if c.locked then { s with lock := none } else s) ∧ d = { c with phase := .done }) ∨
    (∃ i, a = .crash i ∧ c.phase ≠ .done ∧ c.phase ≠ .gone ∧ t = s ∧ d = { c with phase := .gone }) := by
  cases a with
  | acquire i =>
    unfold serve at h
    dsimp only at h
    split at h
    · rename_i hc
      injection h with h
      injection h with h1 h2
      exact Or.inl ⟨i, rfl, hc.1, hc.2, h1.symm, h2.symm⟩
    · cases h
  | timeout i =>
    unfold serve at h
    dsimp only at h
    split at h
    · rename_i hc
      injection h with h
      injection h with h1 h2
      exact Or.inr (Or.inl ⟨i, rfl, hc.1, hc.2, h1.symm, h2.symm⟩)
    · cases h
  | list i =>
    unfold serve at h
    dsimp only at h
    split at h
    · rename_i hc
      injection h with h
      injection h with h1 h2
      exact Or.inr (Or.inr (Or.inl ⟨i, rfl, hc, h1.symm, h2.symm⟩))
    · cases h
  | publish i =>
    unfold serve at h
    dsimp only at h
    split at h
    · rename_i hc
      split at h
      · rename_i hd
        injection h with h
        injection h with h1 h2
        exact Or.inr (Or.inr (Or.inr (Or.inl ⟨i, rfl, hc, hd, h1.symm, h2.symm⟩)))
      · rename_i hd
        injection h with h
        injection h with h1 h2
        exact Or.inr (Or.inr (Or.inr (Or.inr (Or.inl ⟨i, rfl, hc, by simpa using hd, h1.symm, h2.symm⟩))))
    · cases h
  | register i =>
    unfold serve at h
    dsimp only at h
    split at h
    · rename_i hc
      injection h with h
      injection h with h1 h2
      exact Or.inr (Or.inr (Or.inr (Or.inr (Or.inr (Or.inl ⟨i, rfl, hc, h1.symm, h2.symm⟩)))))
    · cases h
  | release i =>
    unfold serve at h
    dsimp only at h
    split at h
    · rename_i hc
      injection h with h
      injection h with h1 h2
      exact Or.inr (Or.inr (Or.inr (Or.inr (Or.inr (Or.inr (Or.inl ⟨i, rfl, hc, h1.symm, h2.symm⟩))))))
    · cases h
  | crash i =>
    unfold serve at h
    dsimp only at h
    split at h
    · rename_i hc
      injection h with h
      injection h with h1 h2
      exact Or.inr (Or.inr (Or.inr (Or.inr (Or.inr (Or.inr (Or.inr ⟨i, rfl, hc.1, hc.2, h1.symm, h2.symm⟩))))))
    · cases h
  | join => cases h

theorem registering_set (s : State) (i : Nat) (c d : Client) (h : s.clients[i]? = some c) (t : State) (ht : t.clients = s.clients.set i d) :
    registering t + (if c.phase = .register then 1 else 0) = registering s + (if d.phase = .register then 1 else 0) := by
  unfold registering
  rw [ht]
  have := countP_set (fun c => c.phase = .register) s.clients i c d h
  simpa using this

/-- The part of the invariant that needs no assumption. -/
def Once (s : State) : Prop := registering s + s.callbacks ≤ (if s.dataset then 1 else 0) ∧ ∀ w ∈ s.workers, w = s.callbacks

theorem once_step (s : State) (a : Act) (s' : State) (h : Once s) (hs : step s a = some s') : Once s' := by
  obtain ⟨h1, h2⟩ := h
  rcases step_cases s s' a hs with ⟨_, e⟩ | ⟨i, c, d, t, hc, _, hserve, e⟩
  · subst e
    refine ⟨h1, ?_⟩
    intro w hw
    rcases List.mem_append.mp hw with hw | hw
    · exact h2 w hw
    · exact List.mem_singleton.mp hw
  · subst e
    have hr := registering_set s i c d hc { t with clients := s.clients.set i d } rfl
    rcases serve_cases s t c d a hserve with ⟨_, _, p, _, e1, e2⟩ | ⟨_, _, p, _, e1, e2⟩ | ⟨_, _, p, e1, e2⟩ | ⟨_, _, p, q, e1, e2⟩ | ⟨_, _, p, q, e1, e2⟩ |
      ⟨_, _, p, e1, e2⟩ | ⟨_, _, p, e1, e2⟩ | ⟨_, _, p, q, e1, e2⟩
    · subst e1 e2
      simp [p] at hr
      exact ⟨by dsimp only at hr ⊢; rw [hr]; exact h1, h2⟩
    · subst e1 e2
      simp [p] at hr
      exact ⟨by dsimp only at hr ⊢; rw [hr]; exact h1, h2⟩
    · subst e1 e2
      have : registering { t with clients := t.clients.set i { c with phase := if t.dataset then .finish else .publish } } = registering t := by
        cases hd : t.dataset <;> simp [p, hd] at hr ⊢ <;> exact hr
      exact ⟨by dsimp only at this ⊢; rw [this]; exact h1, h2⟩
    · subst e1 e2
      simp [p] at hr
      exact ⟨by dsimp only at hr ⊢; rw [hr]; exact h1, h2⟩
    · subst e1 e2
      simp [p] at hr
      refine ⟨?_, h2⟩
      dsimp only at hr ⊢
      rw [hr]
      rw [q] at h1
      simp at h1 ⊢
      omega
    · subst e1 e2
      simp [p] at hr
      refine ⟨?_, ?_⟩
      · dsimp only at hr ⊢
        omega
      · intro w hw
        obtain ⟨v, hv, rfl⟩ := List.mem_map.mp hw
        rw [h2 v hv]
    · subst e2
      have ht : t.dataset = s.dataset ∧ t.callbacks = s.callbacks ∧ t.workers = s.workers := by
        rw [e1]
        cases c.locked <;> exact ⟨rfl, rfl, rfl⟩
      simp [p] at hr
      refine ⟨?_, ?_⟩
      · dsimp only at hr ⊢
        rw [hr, ht.1, ht.2.1]
        exact h1
      · dsimp only
        rw [ht.2.1, ht.2.2]
        exact h2
    · subst e1 e2
      by_cases hp : c.phase = .register
      · simp [hp] at hr
        refine ⟨?_, h2⟩
        dsimp only at hr ⊢
        omega
      · simp [hp] at hr
        exact ⟨by dsimp only at hr ⊢; rw [hr]; exact h1, h2⟩

theorem start_once (n m : Nat) : Once (start n m) := by
  refine ⟨?_, ?_⟩
  · unfold registering start
    simp [List.countP_replicate]
  · intro w hw
    exact (List.mem_replicate.mp hw).2

/-- C126: with any number of clients and workers, timeouts and losses of clients, the setup is registered at most once and run at most once on each worker;
the workers that came later are not treated otherwise. -/
theorem setup_once (n m : Nat) (l : List Act) (s : State) (h : Run (start n m) l s) :
    s.callbacks ≤ 1 ∧ ∀ w ∈ s.workers, w = s.callbacks := by
  have hi := run_invariant Once (fun _ => True) (fun s a s' _ hp hs => once_step s a s' hp hs) _ l s h (fun _ _ => trivial) (start_once n m)
  refine ⟨?_, hi.2⟩
  have := hi.1
  split at this <;> omega

/-! ## When no client is lost -/

/-- Without losses. -/
def noCrash (a : Act) : Prop := ∀ i, a ≠ .crash i

/-- The lock is held by a client in the section, which has `locked`; nobody is gone. The dataset is there once a client is past the check. -/
structure Held (s : State) : Prop where
  count : registering s + s.callbacks = if s.dataset then 1 else 0
  gone : ∀ c ∈ s.clients, c.phase ≠ .gone
  past : ∀ c ∈ s.clients, c.phase = .register ∨ c.phase = .finish ∨ c.phase = .done → s.dataset = true
  holder : ∀ i, s.lock = some i → ∃ c, s.clients[i]? = some c ∧ c.locked = true ∧ c.phase ≠ .waiting ∧ c.phase ≠ .done
  only : ∀ (j : Nat) c, s.clients[j]? = some c → c.locked = true → c.phase ≠ .done → s.lock = some j
  before : ∀ c ∈ s.clients, c.phase = .waiting → c.locked = false

theorem mem_set' {l : List Client} {i : Nat} {d x : Client} (h : x ∈ l.set i d) : x ∈ l ∨ x = d := by
  rcases List.mem_or_eq_of_mem_set h with h | h
  · exact Or.inl h
  · exact Or.inr h

theorem held_step (s : State) (a : Act) (s' : State) (hn : noCrash a) (h : Held s) (hs : step s a = some s') : Held s' := by
  rcases step_cases s s' a hs with ⟨_, e⟩ | ⟨i, c, d, t, hc, hw, hserve, e⟩
  · subst e
    exact ⟨h.count, h.gone, h.past, h.holder, h.only, h.before⟩
  · subst e
    have hr := registering_set s i c d hc { t with clients := s.clients.set i d } rfl
    have hi := (List.getElem?_eq_some_iff.mp hc).1
    have hmem : c ∈ s.clients := List.mem_of_getElem? hc
    have getj : ∀ (j : Nat), (s.clients.set i d)[j]? = if j = i then some d else s.clients[j]? := by
      intro j
      by_cases hj : j = i
      · subst hj
        rw [if_pos rfl]
        exact List.getElem?_set_self hi
      · rw [if_neg hj]
        exact List.getElem?_set_ne (Ne.symm hj)
    rcases serve_cases s t c d a hserve with ⟨k, ek, p, q, e1, e2⟩ | ⟨_, _, p, q, e1, e2⟩ | ⟨_, _, p, e1, e2⟩ | ⟨_, _, p, q, e1, e2⟩ | ⟨_, _, p, q, e1, e2⟩ |
      ⟨_, _, p, e1, e2⟩ | ⟨_, _, p, e1, e2⟩ | ⟨k, ek, p, q, e1, e2⟩
    · -- acquire
      have hki : k = i := by rw [ek] at hw; simpa [Act.who] using hw
      subst hki
      subst e1 e2
      simp [p] at hr
      refine ⟨by dsimp only at hr ⊢; rw [hr]; exact h.count, ?_, ?_, ?_, ?_, ?_⟩
      · intro x hx
        rcases mem_set' hx with hx | rfl
        · exact h.gone x hx
        · simp
      · intro x hx hp
        rcases mem_set' hx with hx | rfl
        · exact h.past x hx hp
        · simp at hp
      · intro j hj
        injection hj with hj
        subst hj
        exact ⟨_, List.getElem?_set_self hi, rfl, by simp, by simp⟩
      · intro j x hx hl hd
        dsimp only at hx ⊢
        rw [getj] at hx
        split at hx
        · rename_i hj
          rw [hj]
        · have := h.only j x hx hl hd
          rw [q] at this
          cases this
      · intro x hx hp
        rcases mem_set' hx with hx | rfl
        · exact h.before x hx hp
        · simp at hp
    · -- timeout
      subst e1 e2
      simp [p] at hr
      refine ⟨by dsimp only at hr ⊢; rw [hr]; exact h.count, ?_, ?_, ?_, ?_, ?_⟩
      · intro x hx
        rcases mem_set' hx with hx | rfl
        · exact h.gone x hx
        · simp
      · intro x hx hp
        rcases mem_set' hx with hx | rfl
        · exact h.past x hx hp
        · simp at hp
      · intro j hj
        obtain ⟨x, hx, h1, h2, h3⟩ := h.holder j hj
        dsimp only
        rw [getj]
        by_cases hji : j = i
        · rw [hji, hc] at hx
          injection hx with hx
          rw [← hx] at h2
          exact absurd p h2
        · rw [if_neg hji]
          exact ⟨x, hx, h1, h2, h3⟩
      · intro j x hx hl hd
        dsimp only at hx ⊢
        rw [getj] at hx
        split at hx
        · injection hx with hx
          rw [← hx] at hl
          cases hl
        · exact h.only j x hx hl hd
      · intro x hx hp
        rcases mem_set' hx with hx | rfl
        · exact h.before x hx hp
        · rfl
    · -- list
      subst e1 e2
      have hcount : registering { t with clients := t.clients.set i { c with phase := if t.dataset then .finish else .publish } } = registering t := by
        cases hd : t.dataset <;> simp [p, hd] at hr ⊢ <;> exact hr
      refine ⟨by dsimp only at hcount ⊢; rw [hcount]; exact h.count, ?_, ?_, ?_, ?_, ?_⟩
      · intro x hx
        rcases mem_set' hx with hx | rfl
        · exact h.gone x hx
        · dsimp only; split <;> simp
      · intro x hx hp
        rcases mem_set' hx with hx | rfl
        · exact h.past x hx hp
        · cases hd : t.dataset with
          | true => rfl
          | false => simp [hd] at hp
      · intro j hj
        obtain ⟨x, hx, h1, h2, h3⟩ := h.holder j hj
        dsimp only
        rw [getj]
        by_cases hji : j = i
        · rw [if_pos hji]
          rw [hji, hc] at hx
          injection hx with hx
          refine ⟨_, rfl, by rw [← hx] at h1; exact h1, ?_, ?_⟩ <;> (dsimp only; split <;> simp)
        · rw [if_neg hji]
          exact ⟨x, hx, h1, h2, h3⟩
      · intro j x hx hl hd
        dsimp only at hx ⊢
        rw [getj] at hx
        split at hx
        · rename_i hj
          injection hx with hx
          rw [← hx] at hl
          rw [hj]
          exact h.only i c hc hl (by rw [p]; simp)
        · exact h.only j x hx hl hd
      · intro x hx hp
        rcases mem_set' hx with hx | rfl
        · exact h.before x hx hp
        · dsimp only at hp
          split at hp <;> cases hp
    · -- publish, KeyError
      subst e1 e2
      simp [p] at hr
      refine ⟨by dsimp only at hr ⊢; rw [hr]; exact h.count, ?_, ?_, ?_, ?_, ?_⟩
      · intro x hx
        rcases mem_set' hx with hx | rfl
        · exact h.gone x hx
        · simp
      · intro x hx hp
        exact q
      · intro j hj
        obtain ⟨x, hx, h1, h2, h3⟩ := h.holder j hj
        dsimp only
        rw [getj]
        by_cases hji : j = i
        · rw [if_pos hji]
          rw [hji, hc] at hx
          injection hx with hx
          exact ⟨_, rfl, by rw [← hx] at h1; exact h1, by simp, by simp⟩
        · rw [if_neg hji]
          exact ⟨x, hx, h1, h2, h3⟩
      · intro j x hx hl hd
        dsimp only at hx ⊢
        rw [getj] at hx
        split at hx
        · rename_i hj
          injection hx with hx
          rw [← hx] at hl
          rw [hj]
          exact h.only i c hc hl (by rw [p]; simp)
        · exact h.only j x hx hl hd
      · intro x hx hp
        rcases mem_set' hx with hx | rfl
        · exact h.before x hx hp
        · simp at hp
    · -- publish
      subst e1 e2
      simp [p] at hr
      refine ⟨?_, ?_, ?_, ?_, ?_, ?_⟩
      · dsimp only at hr ⊢
        have := h.count
        rw [q] at this
        simp at this ⊢
        omega
      · intro x hx
        rcases mem_set' hx with hx | rfl
        · exact h.gone x hx
        · simp
      · intro x hx hp
        rfl
      · intro j hj
        obtain ⟨x, hx, h1, h2, h3⟩ := h.holder j hj
        dsimp only
        rw [getj]
        by_cases hji : j = i
        · rw [if_pos hji]
          rw [hji, hc] at hx
          injection hx with hx
          exact ⟨_, rfl, by rw [← hx] at h1; exact h1, by simp, by simp⟩
        · rw [if_neg hji]
          exact ⟨x, hx, h1, h2, h3⟩
      · intro j x hx hl hd
        dsimp only at hx ⊢
        rw [getj] at hx
        split at hx
        · rename_i hj
          injection hx with hx
          rw [← hx] at hl
          rw [hj]
          exact h.only i c hc hl (by rw [p]; simp)
        · exact h.only j x hx hl hd
      · intro x hx hp
        rcases mem_set' hx with hx | rfl
        · exact h.before x hx hp
        · simp at hp
    · -- register
      subst e1 e2
      simp [p] at hr
      refine ⟨?_, ?_, ?_, ?_, ?_, ?_⟩
      · dsimp only at hr ⊢
        have := h.count
        omega
      · intro x hx
        rcases mem_set' hx with hx | rfl
        · exact h.gone x hx
        · simp
      · intro x hx hp
        exact h.past c hmem (Or.inl p)
      · intro j hj
        obtain ⟨x, hx, h1, h2, h3⟩ := h.holder j hj
        dsimp only
        rw [getj]
        by_cases hji : j = i
        · rw [if_pos hji]
          rw [hji, hc] at hx
          injection hx with hx
          exact ⟨_, rfl, by rw [← hx] at h1; exact h1, by simp, by simp⟩
        · rw [if_neg hji]
          exact ⟨x, hx, h1, h2, h3⟩
      · intro j x hx hl hd
        dsimp only at hx ⊢
        rw [getj] at hx
        split at hx
        · rename_i hj
          injection hx with hx
          rw [← hx] at hl
          rw [hj]
          exact h.only i c hc hl (by rw [p]; simp)
        · exact h.only j x hx hl hd
      · intro x hx hp
        rcases mem_set' hx with hx | rfl
        · exact h.before x hx hp
        · simp at hp
    · -- release
      have ht : t.dataset = s.dataset ∧ t.callbacks = s.callbacks ∧ t.workers = s.workers := by
        rw [e1]
        cases c.locked <;> exact ⟨rfl, rfl, rfl⟩
      subst e2
      simp [p] at hr
      refine ⟨by dsimp only at hr ⊢; rw [hr, ht.1, ht.2.1]; exact h.count, ?_, ?_, ?_, ?_, ?_⟩
      · intro x hx
        rcases mem_set' hx with hx | rfl
        · exact h.gone x hx
        · simp
      · intro x hx hp
        dsimp only
        rw [ht.1]
        exact h.past c hmem (Or.inr (Or.inl p))
      · intro j hj
        dsimp only at hj ⊢
        rw [getj]
        cases hl : c.locked with
        | true =>
          rw [e1, hl] at hj
          cases hj
        | false =>
          rw [e1, hl] at hj
          obtain ⟨x, hx, h1, h2, h3⟩ := h.holder j hj
          by_cases hji : j = i
          · rw [hji, hc] at hx
            injection hx with hx
            rw [← hx, hl] at h1
            cases h1
          · rw [if_neg hji]
            exact ⟨x, hx, h1, h2, h3⟩
      · intro j x hx hl hd
        dsimp only at hx ⊢
        rw [getj] at hx
        split at hx
        · injection hx with hx
          rw [← hx] at hd
          exact absurd rfl hd
        · rename_i hj
          have := h.only j x hx hl hd
          rw [e1]
          cases hlc : c.locked with
          | true =>
            have h2 := h.only i c hc hlc (by rw [p]; simp)
            rw [this] at h2
            injection h2 with h2
            exact absurd h2 hj
          | false => exact this
      · intro x hx hp
        rcases mem_set' hx with hx | rfl
        · exact h.before x hx hp
        · simp at hp
    · exact absurd ek (hn k)

theorem start_held (n m : Nat) : Held (start n m) := by
  refine ⟨?_, ?_, ?_, ?_, ?_, ?_⟩
  · unfold registering start
    simp [List.countP_replicate]
  · intro c hc
    rw [(List.mem_replicate.mp hc).2]
    simp
  · intro c hc hp
    rw [(List.mem_replicate.mp hc).2] at hp
    simp at hp
  · intro i hi
    cases hi
  · intro j c hc hl
    have := List.mem_of_getElem? hc
    rw [(List.mem_replicate.mp this).2] at hl
    cases hl
  · intro c hc _
    rw [(List.mem_replicate.mp hc).2]

theorem run_held (n m : Nat) (l : List Act) (s : State) (h : Run (start n m) l s) (hn : ∀ a ∈ l, noCrash a) : Held s :=
  run_invariant Held noCrash (fun s a s' hq hp hs => held_step s a s' hq hp hs) _ l s h hn (start_held n m)

/-- C126: when all clients have returned, none being lost, the setup is registered exactly once, was run exactly once on every worker whenever it came,
and the lock is free. -/
theorem all_done (n m : Nat) (hn : 0 < n) (l : List Act) (s : State) (h : Run (start n m) l s) (hl : ∀ a ∈ l, noCrash a)
    (hd : ∀ c ∈ s.clients, c.phase = .done) : s.callbacks = 1 ∧ (∀ w ∈ s.workers, w = 1) ∧ s.lock = none := by
  have hh := run_held n m l s h hl
  have hlen : s.clients.length = n := by
    refine run_invariant (fun s => s.clients.length = n) (fun _ => True) ?_ _ l s h (fun _ _ => trivial) (by simp [start])
    intro s a s' _ hp hs
    rcases step_cases s s' a hs with ⟨_, e⟩ | ⟨i, c, d, t, hc, _, hserve, e⟩
    · rw [e]; exact hp
    · rw [e]
      simpa using hp
  have h0 : registering s = 0 := by
    unfold registering
    rw [List.countP_eq_zero]
    intro c hc
    rw [hd c hc]
    simp
  have hds : s.dataset = true := by
    cases hs : s.clients with
    | nil => rw [hs] at hlen; simp at hlen; omega
    | cons c cs =>
      have : c ∈ s.clients := by rw [hs]; exact List.mem_cons_self
      exact hh.past c this (Or.inr (Or.inr (hd c this)))
  have hc1 : s.callbacks = 1 := by
    have := hh.count
    rw [hds, h0] at this
    simpa using this
  refine ⟨hc1, ?_, ?_⟩
  · intro w hw
    rw [(setup_once n m l s h).2 w hw, hc1]
  · cases hlk : s.lock with
    | none => rfl
    | some i =>
      obtain ⟨c, hc, _, _, h3⟩ := hh.holder i hlk
      exact absurd (hd c (List.mem_of_getElem? hc)) h3

/-! ## Progress -/

/-- How many steps a client has left at most. -/
def left : Phase → Nat
  | .waiting => 5
  | .check => 4
  | .publish => 3
  | .register => 2
  | .finish => 1
  | .done => 0
  | .gone => 0

def work (s : State) : Nat := (s.clients.map fun c => left c.phase).sum

theorem sum_set (f : Client → Nat) (l : List Client) (i : Nat) (c d : Client) (h : l[i]? = some c) : ((l.set i d).map f).sum + f c = (l.map f).sum + f d := by
  induction l generalizing i with
  | nil => cases h
  | cons x xs ih =>
    cases i with
    | zero =>
      simp only [List.getElem?_cons_zero, Option.some.injEq] at h
      subst h
      simp only [List.set_cons_zero, List.map_cons, List.sum_cons]
      omega
    | succ j =>
      simp only [List.getElem?_cons_succ] at h
      simp only [List.set_cons_succ, List.map_cons, List.sum_cons]
      have := ih j h
      omega

/-- Every step of a client leaves less work. -/
theorem step_work (s : State) (a : Act) (s' : State) (h : step s a = some s') : if a = .join then work s' = work s else work s' < work s := by
  rcases step_cases s s' a h with ⟨ea, e⟩ | ⟨i, c, d, t, hc, hw, hserve, e⟩
  · rw [if_pos ea, e]
    rfl
  · have hne : a ≠ .join := by rintro rfl; cases hw
    rw [if_neg hne, e]
    have hsum := sum_set (fun c => left c.phase) s.clients i c d hc
    have hlt : left d.phase < left c.phase := by
      rcases serve_cases s t c d a hserve with ⟨_, _, p, _, e1, e2⟩ | ⟨_, _, p, _, e1, e2⟩ | ⟨_, _, p, e1, e2⟩ | ⟨_, _, p, q, e1, e2⟩ | ⟨_, _, p, q, e1, e2⟩ |
        ⟨_, _, p, e1, e2⟩ | ⟨_, _, p, e1, e2⟩ | ⟨_, _, p, q, e1, e2⟩
      · rw [e2, p]; dsimp only; decide
      · rw [e2, p]; dsimp only; decide
      · rw [e2, p]
        dsimp only
        split <;> decide
      · rw [e2, p]; dsimp only; decide
      · rw [e2, p]; dsimp only; decide
      · rw [e2, p]; dsimp only; decide
      · rw [e2, p]; dsimp only; decide
      · rw [e2]
        cases hx : c.phase <;> simp [hx, left] at p q ⊢
    unfold work
    dsimp only at hsum ⊢
    omega

/-- C126: whatever the order, the clients make at most five requests each. -/
theorem few_requests (n m : Nat) (l : List Act) (s : State) (h : Run (start n m) l s) : (l.filter fun a => a ≠ .join).length ≤ 5 * n := by
  have gen : ∀ s0 l s, Run s0 l s → (l.filter fun a => a ≠ .join).length + work s ≤ work s0 := by
    intro s0 l s h
    induction h with
    | nil => simp
    | cons s a s' l s'' hs hr ih =>
      have := step_work s a s' hs
      by_cases ha : a = .join
      · rw [if_pos ha] at this
        rw [List.filter_cons_of_neg (by simp [ha])]
        omega
      · rw [if_neg ha] at this
        rw [List.filter_cons_of_pos (by simp [ha]), List.length_cons]
        omega
  have := gen _ l s h
  have hw : work (start n m) = 5 * n := by
    unfold work start
    simp [List.map_replicate, left, Nat.mul_comm]
  omega

/-- C126: no deadlock: while a client has not returned, some client can go on, and not only by giving up the lock. -/
theorem no_deadlock (n m : Nat) (l : List Act) (s : State) (h : Run (start n m) l s) (hl : ∀ a ∈ l, noCrash a) (hd : ∃ c ∈ s.clients, c.phase ≠ .done) :
    ∃ a s', step s a = some s' ∧ a ≠ .join ∧ noCrash a ∧ ∀ i, a ≠ .timeout i := by
  have hh := run_held n m l s h hl
  have go : ∀ (i : Nat) c, s.clients[i]? = some c → c.phase ≠ .done → c.phase ≠ .waiting ∨ s.lock = none →
      ∃ a s', step s a = some s' ∧ a ≠ .join ∧ noCrash a ∧ ∀ i, a ≠ .timeout i := by
    intro i c hc h1 h2
    cases hp : c.phase with
    | waiting =>
      have hlk : s.lock = none := h2.resolve_left (fun hx => hx hp)
      exact ⟨.acquire i, _, by simp only [step, Act.who, hc, serve, hp, hlk, and_self, if_true, Option.map_some]; rfl, by simp, by intro j; simp, by simp⟩
    | check => exact ⟨.list i, _, by simp only [step, Act.who, hc, serve, hp, if_true, Option.map_some]; rfl, by simp, by intro j; simp, by simp⟩
    | publish =>
      cases hds : s.dataset with
      | true => exact ⟨.publish i, _, by simp only [step, Act.who, hc, serve, hp, hds, if_true, Option.map_some]; rfl, by simp, by intro j; simp, by simp⟩
      | false =>
        exact ⟨.publish i, { s with dataset := true, clients := s.clients.set i { c with phase := .register } },
          by simp [step, Act.who, hc, serve, hp, hds], by simp, by intro j; simp, by simp⟩
    | register => exact ⟨.register i, _, by simp only [step, Act.who, hc, serve, hp, if_true, Option.map_some]; rfl, by simp, by intro j; simp, by simp⟩
    | finish => exact ⟨.release i, _, by simp only [step, Act.who, hc, serve, hp, if_true, Option.map_some]; rfl, by simp, by intro j; simp, by simp⟩
    | done => exact absurd hp h1
    | gone => exact absurd hp (hh.gone c (List.mem_of_getElem? hc))
  obtain ⟨c, hc, hcd⟩ := hd
  obtain ⟨i, hi⟩ := List.getElem?_of_mem hc
  cases hlk : s.lock with
  | none => exact go i c hi hcd (Or.inr hlk)
  | some j =>
    obtain ⟨x, hx, _, h2, h3⟩ := hh.holder j hlk
    exact go j x hx h3 (Or.inl h2)

/-! ## When nobody gives up the lock -/

def patient (a : Act) : Prop := noCrash a ∧ ∀ i, a ≠ .timeout i

/-- With patience all clients in the section have the lock, and a client that is past has left the setup registered. -/
structure Ordered (s : State) : Prop where
  held : Held s
  inside : ∀ c ∈ s.clients, c.phase ≠ .waiting → c.phase ≠ .done → c.locked = true
  after : ∀ c ∈ s.clients, c.phase = .finish ∨ c.phase = .done → s.callbacks = 1
  clean : ∀ c ∈ s.clients, c.keyError = false
  asked : ∀ c ∈ s.clients, c.phase = .publish → s.dataset = false

/-- With patience there is one client in the section. -/
theorem alone (s : State) (h : Ordered s) (i j : Nat) (c d : Client) (hc : s.clients[i]? = some c) (hd : s.clients[j]? = some d)
    (h1 : c.phase ≠ .waiting) (h2 : c.phase ≠ .done) (h3 : d.phase ≠ .waiting) (h4 : d.phase ≠ .done) : i = j := by
  have a := h.held.only i c hc (h.inside c (List.mem_of_getElem? hc) h1 h2) h2
  have b := h.held.only j d hd (h.inside d (List.mem_of_getElem? hd) h3 h4) h4
  rw [a] at b
  injection b

theorem ordered_step (s : State) (a : Act) (s' : State) (hn : patient a) (h : Ordered s) (hs : step s a = some s') : Ordered s' := by
  have hheld := held_step s a s' hn.1 h.held hs
  rcases step_cases s s' a hs with ⟨_, e⟩ | ⟨i, c, d, t, hc, hw, hserve, e⟩
  · subst e
    exact ⟨hheld, h.inside, h.after, h.clean, h.asked⟩
  · subst e
    have hi := (List.getElem?_eq_some_iff.mp hc).1
    have hmem : c ∈ s.clients := List.mem_of_getElem? hc
    have other : ∀ x ∈ s.clients.set i d, x = d ∨ ∃ j, j ≠ i ∧ s.clients[j]? = some x := by
      intro x hx
      obtain ⟨j, hj⟩ := List.getElem?_of_mem hx
      by_cases hji : j = i
      · subst hji
        rw [List.getElem?_set_self hi] at hj
        injection hj with hj
        exact Or.inl hj.symm
      · rw [List.getElem?_set_ne (Ne.symm hji)] at hj
        exact Or.inr ⟨j, hji, hj⟩
    rcases serve_cases s t c d a hserve with ⟨k, ek, p, q, e1, e2⟩ | ⟨k, ek, p, q, e1, e2⟩ | ⟨_, _, p, e1, e2⟩ | ⟨_, _, p, q, e1, e2⟩ | ⟨_, _, p, q, e1, e2⟩ |
      ⟨_, _, p, e1, e2⟩ | ⟨_, _, p, e1, e2⟩ | ⟨k, ek, p, q, e1, e2⟩
    · subst e1 e2
      refine ⟨hheld, ?_, ?_, ?_, ?_⟩
      · intro x hx h1 h2
        rcases mem_set' hx with hx | rfl
        · exact h.inside x hx h1 h2
        · rfl
      · intro x hx hp
        rcases mem_set' hx with hx | rfl
        · exact h.after x hx hp
        · simp at hp
      · intro x hx
        rcases mem_set' hx with hx | rfl
        · exact h.clean x hx
        · exact h.clean c hmem
      · intro x hx hp
        rcases mem_set' hx with hx | rfl
        · exact h.asked x hx hp
        · simp at hp
    · exact absurd ek (hn.2 k)
    · subst e1 e2
      refine ⟨hheld, ?_, ?_, ?_, ?_⟩
      · intro x hx h1 h2
        rcases mem_set' hx with hx | rfl
        · exact h.inside x hx h1 h2
        · exact h.inside c hmem (by rw [p]; simp) (by rw [p]; simp)
      · intro x hx hp
        rcases mem_set' hx with hx | rfl
        · exact h.after x hx hp
        · cases hds : t.dataset with
          | false => simp [hds] at hp
          | true =>
            -- the one who published has left the section
            have h0 : registering t = 0 := by
              unfold registering
              rw [List.countP_eq_zero]
              intro y hy hyp
              obtain ⟨j, hj⟩ := List.getElem?_of_mem hy
              have hyp : y.phase = .register := by simpa using hyp
              have := alone t h i j c y hc hj (by rw [p]; simp) (by rw [p]; simp) (by rw [hyp]; simp) (by rw [hyp]; simp)
              subst this
              rw [hc] at hj
              injection hj with hj
              rw [← hj, p] at hyp
              cases hyp
            have := h.held.count
            rw [hds, h0] at this
            simpa using this
      · intro x hx
        rcases mem_set' hx with hx | rfl
        · exact h.clean x hx
        · exact h.clean c hmem
      · intro x hx hp
        rcases mem_set' hx with hx | rfl
        · exact h.asked x hx hp
        · cases hds : t.dataset with
          | false => rfl
          | true => simp [hds] at hp
    · exact absurd q (by rw [h.asked c hmem p]; simp)
    · subst e1 e2
      refine ⟨hheld, ?_, ?_, ?_, ?_⟩
      · intro x hx h1 h2
        rcases mem_set' hx with hx | rfl
        · exact h.inside x hx h1 h2
        · exact h.inside c hmem (by rw [p]; simp) (by rw [p]; simp)
      · intro x hx hp
        rcases mem_set' hx with hx | rfl
        · exact h.after x hx hp
        · simp at hp
      · intro x hx
        rcases mem_set' hx with hx | rfl
        · exact h.clean x hx
        · exact h.clean c hmem
      · intro x hx hp
        rcases other x hx with rfl | ⟨j, hj, hx⟩
        · simp at hp
        · exact absurd (alone s h i j c x hc hx (by rw [p]; simp) (by rw [p]; simp) (by rw [hp]; simp) (by rw [hp]; simp)).symm hj
    · subst e1 e2
      refine ⟨hheld, ?_, ?_, ?_, ?_⟩
      · intro x hx h1 h2
        rcases mem_set' hx with hx | rfl
        · exact h.inside x hx h1 h2
        · exact h.inside c hmem (by rw [p]; simp) (by rw [p]; simp)
      · intro x hx hp
        have hc1 := h.held.count
        rw [h.held.past c hmem (Or.inl p)] at hc1
        have hpos : 0 < registering s := by
          unfold registering
          rw [List.countP_pos_iff]
          exact ⟨c, hmem, by simp [p]⟩
        dsimp only
        simp at hc1
        omega
      · intro x hx
        rcases mem_set' hx with hx | rfl
        · exact h.clean x hx
        · exact h.clean c hmem
      · intro x hx hp
        rcases other x hx with rfl | ⟨j, hj, hx⟩
        · simp at hp
        · exact absurd (alone s h i j c x hc hx (by rw [p]; simp) (by rw [p]; simp) (by rw [hp]; simp) (by rw [hp]; simp)).symm hj
    · have ht : t.dataset = s.dataset ∧ t.callbacks = s.callbacks := by
        rw [e1]
        cases c.locked <;> exact ⟨rfl, rfl⟩
      subst e2
      refine ⟨hheld, ?_, ?_, ?_, ?_⟩
      · intro x hx h1 h2
        rcases mem_set' hx with hx | rfl
        · exact h.inside x hx h1 h2
        · simp at h2
      · intro x hx hp
        dsimp only
        rw [ht.2]
        exact h.after c hmem (Or.inl p)
      · intro x hx
        rcases mem_set' hx with hx | rfl
        · exact h.clean x hx
        · exact h.clean c hmem
      · intro x hx hp
        rcases mem_set' hx with hx | rfl
        · dsimp only
          rw [ht.1]
          exact h.asked x hx hp
        · simp at hp
    · exact absurd ek (hn.1 k)

theorem run_ordered (n m : Nat) (l : List Act) (s : State) (h : Run (start n m) l s) (hl : ∀ a ∈ l, patient a) : Ordered s := by
  refine run_invariant Ordered patient (fun s a s' hq hp hs => ordered_step s a s' hq hp hs) _ l s h hl ⟨start_held n m, ?_, ?_, ?_, ?_⟩
  · intro c hc h1
    rw [(List.mem_replicate.mp hc).2] at h1
    exact absurd rfl h1
  · intro c hc hp
    rw [(List.mem_replicate.mp hc).2] at hp
    simp at hp
  · intro c hc
    rw [(List.mem_replicate.mp hc).2]
  · intro c hc hp
    rw [(List.mem_replicate.mp hc).2] at hp
    cases hp

/-- C126: if nobody waits for the lock longer than three seconds and no client is lost, then when `use_distributed` returns in one client every worker
is set up, and no client sees the KeyError. Without that, see `returns_early`. -/
theorem returns_ready_partial (n m : Nat) (l : List Act) (s : State) (h : Run (start n m) l s) (hl : ∀ a ∈ l, patient a) :
    (∀ c ∈ s.clients, c.phase = .done → s.callbacks = 1 ∧ ∀ w ∈ s.workers, w = 1) ∧ ∀ c ∈ s.clients, c.keyError = false := by
  have ho := run_ordered n m l s h hl
  refine ⟨?_, ho.clean⟩
  intro c hc hp
  have h1 := ho.after c hc (Or.inr hp)
  refine ⟨h1, ?_⟩
  intro w hw
  rw [(setup_once n m l s h).2 w hw, h1]

/-! ## Cases and limits -/

/-- Runs given by a list of steps. -/
def runs (s : State) : List Act → Option State
  | [] => some s
  | a :: l => (step s a).bind fun s' => runs s' l

theorem runs_run (l : List Act) : ∀ s s', runs s l = some s' → Run s l s' := by
  induction l with
  | nil =>
    intro s s' h
    injection h with h
    rw [h]
    exact .nil s'
  | cons a l ih =>
    intro s s' h
    unfold runs at h
    cases hs : step s a with
    | none => rw [hs] at h; cases h
    | some s1 =>
      rw [hs] at h
      exact .cons s a s1 l s' hs (ih s1 s' h)

/-- C126, a case met by the theorems: two clients one after the other, with a worker that comes in between. -/
theorem two_clients : let l := [Act.acquire 0, .list 0, .publish 0, .join, .register 0, .release 0, .acquire 1, .list 1, .join, .release 1]
    (∀ a ∈ l, patient a) ∧ ∃ s, Run (start 2 2) l s ∧ (∀ c ∈ s.clients, c.phase = .done) ∧ s.workers = [1, 1, 1, 1] := by
  refine ⟨?_, ⟨none, true, 1, [1, 1, 1, 1], [⟨.done, true, false⟩, ⟨.done, true, false⟩]⟩, runs_run _ _ _ (by decide +kernel), by decide, rfl⟩
  intro a ha
  simp only [List.mem_cons, List.not_mem_nil, or_false] at ha
  rcases ha with rfl | rfl | rfl | rfl | rfl | rfl | rfl | rfl | rfl | rfl <;> exact ⟨fun i => by simp, fun i => by simp⟩

/-- C126, not in general: a client that waited three seconds for the lock finds the dataset published and returns while no worker is set up. -/
theorem returns_early : ∃ l s, Run (start 2 1) l s ∧ (∀ a ∈ l, noCrash a) ∧ s.clients[1]? = some ⟨.done, false, false⟩ ∧ s.callbacks = 0 ∧ s.workers = [0] := by
  refine ⟨[.acquire 0, .list 0, .publish 0, .timeout 1, .list 1, .release 1], ⟨some 0, true, 0, [0], [⟨.register, true, false⟩, ⟨.done, false, false⟩]⟩,
    runs_run _ _ _ (by decide +kernel), ?_, rfl, rfl, rfl⟩
  intro a ha
  simp only [List.mem_cons, List.not_mem_nil, or_false] at ha
  rcases ha with rfl | rfl | rfl | rfl | rfl | rfl <;> exact fun i => by simp

/-- C126: and the KeyError can be seen, as the comment in the code says. -/
theorem key_error_seen : ∃ l s, Run (start 2 1) l s ∧ (∀ a ∈ l, noCrash a) ∧ s.clients[1]? = some ⟨.done, false, true⟩ ∧ s.callbacks = 0 := by
  refine ⟨[.acquire 0, .list 0, .timeout 1, .list 1, .publish 0, .publish 1, .release 1], ⟨some 0, true, 0, [0], [⟨.register, true, false⟩, ⟨.done, false, true⟩]⟩,
    runs_run _ _ _ (by decide +kernel), ?_, rfl, rfl⟩
  intro a ha
  simp only [List.mem_cons, List.not_mem_nil, or_false] at ha
  rcases ha with rfl | rfl | rfl | rfl | rfl | rfl | rfl <;> exact fun i => by simp

/-- C126: a client lost between the two requests leaves the scheduler without the setup for ever: no later call registers it, on any schedule, and no
worker is ever set up. -/
theorem lost_client (n m : Nat) (l l' : List Act) (s s' : State) (_ : Run (start n m) l s) (hd : s.dataset = true) (hc : s.callbacks = 0) (hr : registering s = 0)
    (hw : ∀ w ∈ s.workers, w = 0) (h' : Run s l' s') : s'.callbacks = 0 ∧ ∀ w ∈ s'.workers, w = 0 := by
  have key := run_invariant (fun s => s.dataset = true ∧ s.callbacks = 0 ∧ registering s = 0 ∧ ∀ w ∈ s.workers, w = 0) (fun _ => True) ?_ s l' s' h' (fun _ _ => trivial)
    ⟨hd, hc, hr, hw⟩
  · exact ⟨key.2.1, key.2.2.2⟩
  · intro s a s' _ ⟨h1, h2, h3, h4⟩ hs
    rcases step_cases s s' a hs with ⟨_, e⟩ | ⟨i, c, d, t, hc, _, hserve, e⟩
    · subst e
      refine ⟨h1, h2, h3, ?_⟩
      intro w hw
      rcases List.mem_append.mp hw with hw | hw
      · exact h4 w hw
      · rw [List.mem_singleton.mp hw, h2]
    · subst e
      have hreg := registering_set s i c d hc { t with clients := s.clients.set i d } rfl
      have hcr : c.phase ≠ .register := by
        intro hx
        have : 0 < registering s := by
          unfold registering
          rw [List.countP_pos_iff]
          exact ⟨c, List.mem_of_getElem? hc, by simp [hx]⟩
        omega
      rw [if_neg hcr, h3] at hreg
      have fin : ∀ (t' : State), t'.dataset = s.dataset → t'.callbacks = s.callbacks → t'.workers = s.workers → t = t' → d.phase ≠ .register →
          (fun s : State => s.dataset = true ∧ s.callbacks = 0 ∧ registering s = 0 ∧ ∀ w ∈ s.workers, w = 0) { t with clients := s.clients.set i d } := by
        intro t' a1 a2 a3 a4 a5
        rw [if_neg a5] at hreg
        rw [a4] at hreg ⊢
        exact ⟨by rw [← h1, ← a1], by rw [← h2, ← a2], hreg, by dsimp only; rw [a3]; exact h4⟩
      rcases serve_cases s t c d a hserve with ⟨_, _, p, _, e1, e2⟩ | ⟨_, _, p, _, e1, e2⟩ | ⟨_, _, p, e1, e2⟩ | ⟨_, _, p, q, e1, e2⟩ | ⟨_, _, p, q, e1, e2⟩ |
        ⟨_, _, p, e1, e2⟩ | ⟨_, _, p, e1, e2⟩ | ⟨_, _, p, q, e1, e2⟩
      · exact fin { s with lock := some _ } rfl rfl rfl e1 (by rw [e2]; simp)
      · exact fin _ rfl rfl rfl e1 (by rw [e2]; simp)
      · exact fin _ rfl rfl rfl e1 (by rw [e2, h1]; simp)
      · exact fin _ rfl rfl rfl e1 (by rw [e2]; simp)
      · rw [h1] at q; cases q
      · exact absurd p hcr
      · refine fin _ ?_ ?_ ?_ e1 (by rw [e2]; simp) <;> cases c.locked <;> rfl
      · exact fin _ rfl rfl rfl e1 (by rw [e2]; simp)

/-- The hypotheses of `lost_client` are met. -/
theorem lost_client_case : ∃ l s, Run (start 3 2) l s ∧ s.dataset = true ∧ s.callbacks = 0 ∧ registering s = 0 ∧ s.workers = [0, 0] :=
  ⟨[.acquire 0, .list 0, .publish 0, .crash 0], ⟨some 0, true, 0, [0, 0], [⟨.gone, true, false⟩, ⟨.waiting, false, false⟩, ⟨.waiting, false, false⟩]⟩,
    runs_run _ _ _ (by decide +kernel), rfl, rfl, by decide, rfl⟩

end NBK.Setup.Cluster
