import Verif.Capture.BlockProps

/-! # Captured output (C138): whether a block ends -/
set_option linter.unusedSimpArgs false
namespace NBK.Capture

/-! ## Steps of the threads -/

/-- The two pipes of a block, one of which changes. -/
theorem two_pipes (pi : Nat → List Byte) (f : Frame) (n : Name) (v : List Byte) :
    (Function.update pi (f.pipe n) v (f.pipe .out)).length + (Function.update pi (f.pipe n) v (f.pipe .err)).length + (pi (f.pipe n)).length =
      (pi (f.pipe .out)).length + (pi (f.pipe .err)).length + v.length := by
  cases n
  · rw [Function.update_self, Function.update_of_ne (fun e => by cases pipe_inj f e)]; omega
  · rw [Function.update_self, Function.update_of_ne (fun e => by cases pipe_inj f e)]; omega

theorem two_bufs (buf : Name → List Byte) (n : Name) (v : List Byte) :
    (Function.update buf n v .out).length + (Function.update buf n v .err).length + (buf n).length = (buf .out).length + (buf .err).length + v.length := by
  cases n
  · rw [Function.update_self, Function.update_of_ne (by decide)]; omega
  · rw [Function.update_self, Function.update_of_ne (by decide)]; omega

/-- A thread leaves alone the buffers and the running C function, and takes bytes out of pipes. -/
theorem thread_frame {s s' : St} {i : Nat} {f : Frame} (h : threadStep s i f = some s') :
    s'.buf = s.buf ∧ s'.call = s.call ∧ (∀ p, (s'.pipes p).length ≤ (s.pipes p).length) ∧ ∃ f', s'.frames = s.frames.set i f' ∧ f'.p0 = f.p0 ∧ f'.exiting = f.exiting ∧ f'.q0 = f.q0 := by
  unfold threadStep at h
  split at h
  · split_ifs at h
    simp only [Option.some.injEq] at h
    subst h
    exact ⟨rfl, rfl, fun _ => Nat.le_refl _, _, rfl, rfl, rfl, rfl⟩
  · split_ifs at h
    simp only [Option.some.injEq] at h
    subst h
    exact ⟨rfl, rfl, fun _ => Nat.le_refl _, _, rfl, rfl, rfl, rfl⟩
  · split at h
    · split_ifs at h
      · simp only [Option.some.injEq] at h
        subst h
        exact ⟨rfl, rfl, fun _ => Nat.le_refl _, _, rfl, rfl, rfl, rfl⟩
      · simp only [Option.some.injEq] at h
        subst h
        exact ⟨rfl, rfl, fun _ => Nat.le_refl _, _, rfl, rfl, rfl, rfl⟩
    · simp only [Option.some.injEq] at h
      subst h
      exact ⟨rfl, rfl, fun _ => Nat.le_refl _, _, rfl, rfl, rfl, rfl⟩
  · simp only [Option.some.injEq] at h
    subst h
    exact ⟨rfl, rfl, fun _ => Nat.le_refl _, _, rfl, rfl, rfl, rfl⟩
  · simp only [Option.some.injEq] at h
    subst h
    exact ⟨rfl, rfl, fun _ => Nat.le_refl _, _, rfl, rfl, rfl, rfl⟩
  · rename_i n r hph
    split_ifs at h
    simp only [Option.some.injEq] at h
    subst h
    refine ⟨rfl, rfl, fun p => ?_, _, rfl, rfl, rfl, rfl⟩
    show (Function.update s.pipes (f.pipe n) ((s.pipes (f.pipe n)).drop chunk) p).length ≤ _
    by_cases hp : p = f.pipe n
    · rw [hp, Function.update_self, List.length_drop]; omega
    · rw [Function.update_of_ne hp]

/-- A thread of a block around the innermost one does not touch that. -/
theorem thread_other {s s' : St} {i : Nat} {f g : Frame} {gs : List Frame} {p q : Nat} (ho : Ordered s.frames p q) (hf : s.frames = g :: gs) (hg : s.frames[i + 1]? = some f)
    (h : threadStep s (i + 1) f = some s') : (∃ gs', s'.frames = g :: gs') ∧ ∀ n, s'.pipes (g.pipe n) = s.pipes (g.pipe n) := by
  obtain ⟨-, -, -, f', h1, -⟩ := thread_frame h
  refine ⟨⟨gs.set i f', by rw [h1, hf]; rfl⟩, fun n => ?_⟩
  have hne : ∀ k, g.pipe n ≠ f.pipe k := Ordered.pipe_ne s.frames p q 0 (i + 1) g f ho (by rw [hf]; rfl) hg (by omega) n
  unfold threadStep at h
  split at h
  · split_ifs at h
    simp only [Option.some.injEq] at h
    rw [← h]
  · split_ifs at h
    simp only [Option.some.injEq] at h
    rw [← h]
  · split at h
    · split_ifs at h
      · simp only [Option.some.injEq] at h
        rw [← h]
      · simp only [Option.some.injEq] at h
        rw [← h]
    · simp only [Option.some.injEq] at h
      rw [← h]
  · simp only [Option.some.injEq] at h
    rw [← h]
  · simp only [Option.some.injEq] at h
    rw [← h]
  · rename_i k r hph
    split_ifs at h
    simp only [Option.some.injEq] at h
    rw [← h]
    exact Function.update_of_ne (hne k) _ _

theorem step_thread {m : Mach} {s s' : St} {i : Nat} (h : step m s (.thread i) = some s') : ∃ f, s.frames[i]? = some f ∧ f.done = false ∧ s.locked = false ∧ threadStep s i f = some s' := by
  simp only [step] at h
  split at h
  · cases h
  rename_i hl
  split at h
  · cases h
  rename_i f hg
  split at h
  · cases h
  rename_i hd
  exact ⟨f, hg, by simpa using hd, by simpa using hl, h⟩

/-! ## Waiting for the thread -/

/-- What the thread has still to do. -/
def turns (pi : Nat → List Byte) (f : Frame) : Nat :=
  if f.done then 0 else
    let x := (pi (f.pipe .out)).length + (pi (f.pipe .err)).length + if f.draining then 0 else 1
    match f.phase with
    | .flush .out => 8 * x + 3
    | .flush .err => 8 * x + 2
    | .select => 8 * x + 1
    | .handle r => 8 * (x - r.length) + 4 + r.length

theorem ready_length (s : St) (f : Frame) (he : f.exiting = true) :
    (ready s f).length ≤ (s.pipes (f.pipe .out)).length + (s.pipes (f.pipe .err)).length + (if f.draining then 0 else 1) ∧ (ready s f = [] → f.draining = true) := by
  unfold ready
  have h1 : s.pipes (f.pipe .out) ≠ [] → 0 < (s.pipes (f.pipe .out)).length := List.length_pos_iff.mpr
  have h2 : s.pipes (f.pipe .err) ≠ [] → 0 < (s.pipes (f.pipe .err)).length := List.length_pos_iff.mpr
  rw [he]
  cases f.draining
  · simp only [Bool.not_false, Bool.and_self, if_true, Bool.false_eq_true, if_false]
    refine ⟨?_, by simp⟩
    split_ifs with a b b
    · have := h1 a; have := h2 b; simp; omega
    · have := h1 a; simp; omega
    · have := h2 b; simp; omega
    · simp
  · simp only [Bool.not_true, Bool.and_false, Bool.false_eq_true, if_false, if_true, List.nil_append, implies_true, and_true]
    split_ifs with a b b
    · have := h1 a; have := h2 b; simp; omega
    · have := h1 a; simp; omega
    · have := h2 b; simp; omega
    · simp

/-- While the main thread waits, every turn of the thread comes nearer to the end, and no other event goes back. -/
theorem wait_step {m : Mach} {base : Table} {bsys : Name → Nat} {s s' : St} {as : List Acc} (hi : Inv base bsys s as) {f : Frame} {fs : List Frame} (hf : s.frames = f :: fs)
    (hex : f.exiting = true) {e : Ev} (he : e ≠ .leave) (h : step m s e = some s') :
    ∃ f' fs', s'.frames = f' :: fs' ∧ f'.exiting = true ∧ (e = .thread 0 → turns s'.pipes f' < turns s.pipes f) ∧ (e ≠ .thread 0 → turns s'.pipes f' = turns s.pipes f) := by
  obtain ⟨o1, o2, tabs, ord, sys, data, top, ph⟩ := hi
  have hw : s.waiting = true := by unfold St.waiting; rw [hf]; exact hex
  unfold Top at top
  rw [hf] at top
  simp only at top
  obtain ⟨hbuf, hcall⟩ := top.2.2.2.1 hex
  cases e with
  | py n t => simp [step, hw] at h
  | call g l => simp [step, hw] at h
  | put n b => simp [step, hcall] at h
  | drain n => simp [step, hbuf] at h
  | ret => simp [step, hcall] at h
  | enter => simp [step, hw] at h
  | finish => simp [step, hw] at h
  | leave => exact absurd rfl he
  | thread i =>
    obtain ⟨g, hg, hnd, -, h⟩ := step_thread h
    cases i with
    | succ i =>
      obtain ⟨⟨gs', a1⟩, a2⟩ := thread_other ord hf hg h
      refine ⟨f, gs', a1, hex, fun he => by simp at he, fun _ => ?_⟩
      unfold turns
      rw [a2, a2]
    | zero =>
      rw [hf] at hg
      simp only [List.getElem?_cons_zero, Option.some.injEq] at hg
      subst hg
      have goal : ∀ f', s'.frames = f' :: fs → f'.exiting = true → turns s'.pipes f' < turns s.pipes f → ∃ f' fs', s'.frames = f' :: fs' ∧ f'.exiting = true ∧
          (Ev.thread 0 = .thread 0 → turns s'.pipes f' < turns s.pipes f) ∧ (Ev.thread 0 ≠ .thread 0 → turns s'.pipes f' = turns s.pipes f) :=
        fun f' h1 h2 h3 => ⟨f', fs, h1, h2, fun _ => h3, fun h => absurd rfl h⟩
      unfold threadStep at h
      split at h
      · rename_i hph
        split_ifs at h
        simp only [Option.some.injEq] at h
        subst h
        refine goal { f with phase := .flush .err } (by simp [hf]) hex ?_
        unfold turns
        simp only [hph, hnd, Bool.false_eq_true, if_false]
        exact Nat.lt_succ_self _
      · rename_i hph
        split_ifs at h
        simp only [Option.some.injEq] at h
        subst h
        refine goal { f with phase := .select } (by simp [hf]) hex ?_
        unfold turns
        simp only [hph, hnd, Bool.false_eq_true, if_false]
        exact Nat.lt_succ_self _
      · rename_i hph
        obtain ⟨q1, q2⟩ := ready_length s f hex
        split at h
        · rename_i hr
          rw [if_pos (q2 hr)] at h
          simp only [Option.some.injEq] at h
          subst h
          refine goal { f with done := true } (by simp [hf]) hex ?_
          unfold turns
          simp only [hph, hnd, Bool.false_eq_true, if_false, if_true]
          omega
        · rename_i hr
          simp only [Option.some.injEq] at h
          subst h
          refine goal { f with phase := .handle (ready s f) } (by simp [hf]) hex ?_
          have hpos : 0 < (ready s f).length := List.length_pos_iff.mpr hr
          unfold turns
          simp only [hph, hnd, Bool.false_eq_true, if_false]
          show 8 * ((s.pipes (f.pipe .out)).length + (s.pipes (f.pipe .err)).length + (if f.draining then 0 else 1) - (ready s f).length) + 4 + (ready s f).length < _
          omega
      · rename_i hph
        simp only [Option.some.injEq] at h
        subst h
        refine goal { f with phase := .flush .out } (by simp [hf]) hex ?_
        unfold turns
        simp only [hph, hnd, Bool.false_eq_true, if_false, List.length_nil]
        show 8 * ((s.pipes (f.pipe .out)).length + (s.pipes (f.pipe .err)).length + (if f.draining then 0 else 1)) + 3 < _
        omega
      · rename_i r hph
        simp only [Option.some.injEq] at h
        subst h
        have hnr := ((ph f (by rw [hf]; exact List.mem_cons_self) _ hph).2.1 List.mem_cons_self).2
        refine goal { f with draining := true, phase := .handle r } (by simp [hf]) hex ?_
        unfold turns
        simp only [hph, hnd, hnr, Bool.false_eq_true, if_false, if_true, List.length_cons]
        show 8 * ((s.pipes (f.pipe .out)).length + (s.pipes (f.pipe .err)).length + 0 - r.length) + 4 + r.length < _
        omega
      · rename_i n r hph
        split_ifs at h with hne
        simp only [Option.some.injEq] at h
        subst h
        refine goal { f with phase := .handle r } (by simp [hf]) hex ?_
        have hlen : 0 < (s.pipes (f.pipe n)).length := List.length_pos_iff.mpr hne
        have hdrop : ((s.pipes (f.pipe n)).drop chunk).length < (s.pipes (f.pipe n)).length := by rw [List.length_drop]; unfold chunk; omega
        have htwo := two_pipes s.pipes f n ((s.pipes (f.pipe n)).drop chunk)
        unfold turns
        simp only [hph, hnd, Bool.false_eq_true, if_false, List.length_cons]
        show 8 * ((Function.update s.pipes (f.pipe n) ((s.pipes (f.pipe n)).drop chunk) (f.pipe .out)).length +
          (Function.update s.pipes (f.pipe n) ((s.pipes (f.pipe n)).drop chunk) (f.pipe .err)).length + (if f.draining then 0 else 1) - r.length) + 4 + r.length < _
        omega

/-- While the main thread waits, the thread can go on or the block can be left. -/
theorem wait_live {base : Table} {bsys : Name → Nat} {s : St} {as : List Acc} (m : Mach) (hi : Inv base bsys s as) (hw : s.waiting = true) :
    ∃ s', step m s .leave = some s' ∨ step m s (.thread 0) = some s' := by
  rcases frames_cases s with hf | ⟨f, fs, hf⟩
  · unfold St.waiting at hw; rw [hf] at hw; cases hw
  have hex : f.exiting = true := by unfold St.waiting at hw; rw [hf] at hw; exact hw
  have top := hi.top
  unfold Top at top
  rw [hf] at top
  simp only at top
  obtain ⟨hbuf, hcall⟩ := top.2.2.2.1 hex
  have hlock : s.locked = false := by unfold St.locked; rw [hcall]
  have h0 : s.frames[0]? = some f := by rw [hf]; rfl
  cases hd : f.done with
  | true => exact ⟨_, .inl (by simp only [step, hf]; rw [if_pos hd])⟩
  | false =>
    have hstep : step m s (.thread 0) = threadStep s 0 f := by simp only [step, hlock, h0, hd]; rfl
    rw [hstep]
    unfold threadStep
    split
    · exact ⟨_, .inr (if_pos (hbuf .out))⟩
    · exact ⟨_, .inr (if_pos (hbuf .err))⟩
    · split
      · split_ifs
        · exact ⟨_, .inr rfl⟩
        · exact ⟨_, .inr rfl⟩
      · exact ⟨_, .inr rfl⟩
    · exact ⟨_, .inr rfl⟩
    · exact ⟨_, .inr rfl⟩
    · rename_i n r hph
      have := (hi.ph f (by rw [hf]; exact List.mem_cons_self) _ hph).2.2 n List.mem_cons_self
      exact ⟨_, .inr (if_neg this)⟩

theorem wait_run {m : Mach} {base : Table} {bsys : Name → Nat} : ∀ (es : List Ev) (s s' : St) (as : List Acc) (f : Frame) (fs : List Frame), Inv base bsys s as → s.frames = f :: fs →
    f.exiting = true → .leave ∉ es → run m s es = some s' →
    ∃ f' fs', s'.frames = f' :: fs' ∧ f'.exiting = true ∧ turns s'.pipes f' + es.count (.thread 0) ≤ turns s.pipes f
  | [], s, s', as, f, fs, hi, hf, hex, _, h => by
    simp only [run, Option.some.injEq] at h
    subst h
    exact ⟨f, fs, hf, hex, by simp⟩
  | e :: es, s, s', as, f, fs, hi, hf, hex, hl, h => by
    simp only [run] at h
    simp only [List.mem_cons, not_or] at hl
    cases hs : step m s e with
    | none => rw [hs] at h; cases h
    | some s1 =>
      rw [hs] at h
      obtain ⟨f1, fs1, a1, a2, a3, a4⟩ := wait_step hi hf hex (Ne.symm hl.1) hs
      obtain ⟨f2, fs2, b1, b2, b3⟩ := wait_run es s1 s' _ f1 fs1 (inv_step m base bsys s s1 as hi e hs) a1 a2 hl.2 h
      refine ⟨f2, fs2, b1, b2, ?_⟩
      rw [List.count_cons]
      by_cases he : e = .thread 0
      · have := a3 he
        rw [if_pos (by simp [he])]
        omega
      · have := a4 he
        rw [if_neg (by simp [he])]
        omega

theorem wait_ends {m : Mach} {base : Table} {bsys : Name → Nat} : ∀ (k : Nat) (s : St) (as : List Acc) (f : Frame) (fs : List Frame), turns s.pipes f ≤ k → Inv base bsys s as →
    s.frames = f :: fs → f.exiting = true → ∃ es s', Ev.leave ∉ es ∧ Ev.enter ∉ es ∧ run m s (es ++ [.leave]) = some s' := by
  intro k
  induction k with
  | zero =>
    intro s as f fs hk hi hf hex
    obtain ⟨s1, hs | hs⟩ := wait_live m hi (by unfold St.waiting; rw [hf]; exact hex)
    · exact ⟨[], s1, by simp, by simp, by simp [run, hs]⟩
    · obtain ⟨_, _, _, _, h, _⟩ := wait_step hi hf hex (by simp) hs
      have := h rfl; omega
  | succ k ih =>
    intro s as f fs hk hi hf hex
    obtain ⟨s1, hs | hs⟩ := wait_live m hi (by unfold St.waiting; rw [hf]; exact hex)
    · exact ⟨[], s1, by simp, by simp, by simp [run, hs]⟩
    · obtain ⟨f1, fs1, a1, a2, a3, _⟩ := wait_step hi hf hex (by simp) hs
      have := a3 rfl
      obtain ⟨es, s2, b1, b0, b2⟩ := ih s1 _ f1 fs1 (by omega) (inv_step m base bsys s s1 as hi _ hs) a1 a2
      exact ⟨.thread 0 :: es, s2, by simp [b1], by simp [b0], by simp only [List.cons_append, run, hs]; exact b2⟩

/-- C138: whatever has happened, once a block waits for its thread, that has a bounded number of turns in all executions that do not leave the block, and in each of them the thread can go on or the
block can be left, so that the block ends when the thread is given time. -/
theorem block_ends (m : Mach) (s s0 : St) (h1 : s.fds 1 ≠ none) (h2 : s.fds 2 ≠ none) (hf : s.frames = []) (before : List Ev) (hb : run m s before = some s0) (hw : s0.waiting = true) :
    ∃ K, ∀ es s', Ev.leave ∉ es → run m s0 es = some s' → es.count (.thread 0) ≤ K ∧ (∃ s'', step m s' .leave = some s'' ∨ step m s' (.thread 0) = some s'') ∧
      ∃ es' s'', Ev.leave ∉ es' ∧ run m s' (es' ++ [.leave]) = some s'' := by
  have hi := inv_run m s.fds s.sys before s s0 [] (inv_start s h1 h2 hf) hb
  rcases frames_cases s0 with hf0 | ⟨f, fs, hf0⟩
  · unfold St.waiting at hw; rw [hf0] at hw; cases hw
  have hex : f.exiting = true := by unfold St.waiting at hw; rw [hf0] at hw; exact hw
  refine ⟨turns s0.pipes f, fun es s' hl h => ?_⟩
  obtain ⟨f', fs', a1, a2, a3⟩ := wait_run es s0 s' _ f fs hi hf0 hex hl h
  have hi' := inv_run m _ _ es s0 s' _ hi h
  obtain ⟨es', s'', b1, -, b2⟩ := wait_ends (m := m) _ s' _ f' fs' (Nat.le_refl _) hi' a1 a2
  exact ⟨by omega, wait_live m hi' (by unfold St.waiting; rw [a1]; exact a2), es', s'', b1, b2⟩

/-! ## A C function in a block -/

/-- The bytes for a stream in what is still printed. -/
def count (n : Name) (l : List (Name × Byte)) : Nat := (l.filter fun x => decide (x.1 = n)).length

theorem count_cons (n : Name) (x : Name × Byte) (l : List (Name × Byte)) : count n (x :: l) = count n l + if x.1 = n then 1 else 0 := by
  unfold count
  by_cases h : x.1 = n
  · simp [h]
  · simp [h]

/-- What is still printed and what is in the buffers fits into the pipes of the block. -/
structure Fits (m : Mach) (g : Bool) (p : Name → Nat) (s : St) (l : List (Name × Byte)) : Prop where
  pipe : ∃ f fs, s.frames = f :: fs ∧ f.exiting = false ∧ f.pipe = p
  call : s.call = some (g, l)
  fit : ∀ n, count n l + (s.buf n).length + (s.pipes (p n)).length ≤ m.cap

theorem pipe_eq {f g : Frame} (h : f.p0 = g.p0) : f.pipe = g.pipe := by
  funext n
  cases n <;> simp [Frame.pipe, h]

theorem fits_step {m : Mach} {base : Table} {bsys : Name → Nat} {s s' : St} {as : List Acc} (hi : Inv base bsys s as) {g : Bool} {p : Name → Nat} {l : List (Name × Byte)}
    (hs : Fits m g p s l) {e : Ev} (he : e ≠ .ret) (h : step m s e = some s') :
    ∃ l', Fits m g p s' l' ∧ ((∃ i, e = .thread i) → 2 * l'.length + (s'.buf .out).length + (s'.buf .err).length = 2 * l.length + (s.buf .out).length + (s.buf .err).length) ∧
      ((∀ i, e ≠ .thread i) → 2 * l'.length + (s'.buf .out).length + (s'.buf .err).length < 2 * l.length + (s.buf .out).length + (s.buf .err).length) := by
  obtain ⟨⟨f, fs, hf, hex, hp⟩, hc, fit⟩ := hs
  have tabs := hi.tabs
  have top := hi.top
  unfold Top at top
  rw [hf] at tabs top
  simp only at top
  have hdn : f.done = false := by
    by_contra hx
    have := top.1 (top.2.1 (by simpa using hx))
    rw [hex] at this; cases this
  cases e with
  | py n t => simp [step, hc] at h
  | call g l => simp [step, hc] at h
  | put n b =>
    simp only [step, hc] at h
    split at h
    · rename_i g' x l' hgl
      simp only [Option.some.injEq, Prod.mk.injEq] at hgl
      obtain ⟨rfl, rfl⟩ := hgl
      split at h
      · rename_i hx
        simp only [Option.some.injEq] at h
        subst h
        refine ⟨l', ⟨⟨f, fs, hf, hex, hp⟩, rfl, fun k => ?_⟩, (fun ⟨i, hi⟩ => by cases hi), fun _ => ?_⟩
        · have := fit k
          rw [count_cons, hx.1] at this
          by_cases hk : n = k
          · subst hk
            simp only [Function.update_self, List.length_append, List.length_singleton, if_true] at this ⊢
            omega
          · simp only [Function.update_of_ne (Ne.symm hk), if_neg hk] at this ⊢
            omega
        · have := two_bufs s.buf n (s.buf n ++ [b])
          rw [List.length_append, List.length_singleton] at this
          simp only [List.length_cons]
          omega
      · cases h
    · cases h
  | drain n =>
    simp only [step] at h
    split at h
    · cases h
    rename_i b rest hb
    unfold drainTo at h
    rw [tabs.target n] at h
    simp only at h
    split at h
    · simp only [Option.some.injEq] at h
      subst h
      refine ⟨l, ⟨⟨f, fs, hf, hex, hp⟩, hc, fun k => ?_⟩, (fun ⟨i, hi⟩ => by cases hi), fun _ => ?_⟩
      · have := fit k
        by_cases hk : k = n
        · subst hk
          rw [hb, List.length_cons] at this
          simp only [hp, Function.update_self, List.length_append, List.length_singleton]
          omega
        · have hne : p k ≠ f.pipe n := by rw [← hp]; exact fun e => hk (pipe_inj f e)
          simp only [Function.update_of_ne hk, Function.update_of_ne hne]
          exact this
      · have := two_bufs s.buf n rest
        rw [hb, List.length_cons] at this
        show 2 * l.length + (Function.update s.buf n rest .out).length + (Function.update s.buf n rest .err).length < _
        omega
    · cases h
  | ret => exact absurd rfl he
  | enter => simp [step, hc] at h
  | finish => simp [step, hc] at h
  | leave => simp [step, hf, hdn] at h
  | thread i =>
    obtain ⟨g', hg, -, -, h⟩ := step_thread h
    obtain ⟨a1, a2, a3, f', a4, a5, a6, -⟩ := thread_frame h
    refine ⟨l, ⟨?_, a2.trans hc, fun n => ?_⟩, fun _ => by rw [a1], fun hx => absurd rfl (hx i)⟩
    · rw [hf] at a4 hg
      cases i with
      | zero =>
        simp only [List.getElem?_cons_zero, Option.some.injEq] at hg
        subst hg
        exact ⟨f', fs, a4, a6.trans hex, (pipe_eq a5).trans hp⟩
      | succ i => exact ⟨f, fs.set i f', a4, hex, hp⟩
    · have := fit n
      have := a3 (p n)
      rw [a1]
      omega

theorem fits_live {m : Mach} {base : Table} {bsys : Name → Nat} {s : St} {as : List Acc} (hi : Inv base bsys s as) (hb : 0 < m.bcap) {g : Bool} {p : Name → Nat} {l : List (Name × Byte)}
    (hs : Fits m g p s l) : ∃ e s', step m s e = some s' ∧ ((∃ n b, e = .put n b) ∨ (∃ n, e = .drain n) ∨ e = .ret) := by
  obtain ⟨⟨f, fs, hf, hex, hp⟩, hc, fit⟩ := hs
  have tabs := hi.tabs
  rw [hf] at tabs
  cases l with
  | nil => exact ⟨.ret, _, by simp only [step, hc]; rfl, .inr (.inr rfl)⟩
  | cons x l =>
    by_cases hlt : (s.buf x.1).length < m.bcap
    · exact ⟨.put x.1 x.2, { s with call := some (g, l), buf := Function.update s.buf x.1 (s.buf x.1 ++ [x.2]) }, by simp [step, hc, hlt], .inl ⟨_, _, rfl⟩⟩
    · cases hbx : s.buf x.1 with
      | nil => rw [hbx] at hlt; exact absurd hb hlt
      | cons b rest =>
        have := fit x.1
        rw [hbx, List.length_cons] at this
        have hroom : (s.pipes (f.pipe x.1)).length < m.cap := by rw [hp]; omega
        exact ⟨.drain x.1, _, by simp only [step, hbx, drainTo, tabs.target x.1, if_pos hroom]; rfl, .inr (.inl ⟨_, rfl⟩)⟩

/-- The events of an execution that are not turns of threads. -/
def mainEvents (es : List Ev) : Nat := (es.filter fun e => match e with | .thread _ => false | _ => true).length

theorem mainEvents_thread (i : Nat) (es : List Ev) : mainEvents (.thread i :: es) = mainEvents es := by simp [mainEvents]
theorem mainEvents_other (e : Ev) (h : ∀ i, e ≠ .thread i) (es : List Ev) : mainEvents (e :: es) = mainEvents es + 1 := by
  cases e <;> simp [mainEvents]
  exact h _ rfl

theorem fits_run {m : Mach} {base : Table} {bsys : Name → Nat} {g : Bool} {p : Name → Nat} : ∀ (es : List Ev) (s s' : St) (as : List Acc) (l : List (Name × Byte)), Inv base bsys s as →
    Fits m g p s l → Ev.ret ∉ es → run m s es = some s' →
    ∃ l', Fits m g p s' l' ∧ 2 * l'.length + (s'.buf .out).length + (s'.buf .err).length + mainEvents es ≤ 2 * l.length + (s.buf .out).length + (s.buf .err).length
  | [], s, s', as, l, hi, hs, _, h => by
    simp only [run, Option.some.injEq] at h
    subst h
    exact ⟨l, hs, by simp [mainEvents]⟩
  | e :: es, s, s', as, l, hi, hs, hl, h => by
    simp only [run] at h
    simp only [List.mem_cons, not_or] at hl
    cases hst : step m s e with
    | none => rw [hst] at h; cases h
    | some s1 =>
      rw [hst] at h
      obtain ⟨l1, a1, a2, a3⟩ := fits_step hi hs (Ne.symm hl.1) hst
      obtain ⟨l2, b1, b2⟩ := fits_run es s1 s' _ l1 (inv_step m base bsys s s1 as hi e hst) a1 hl.2 h
      refine ⟨l2, b1, ?_⟩
      by_cases he : ∃ i, e = .thread i
      · have := a2 he
        obtain ⟨i, rfl⟩ := he
        rw [mainEvents_thread]
        omega
      · have he' : ∀ i, e ≠ .thread i := fun i hi => he ⟨i, hi⟩
        have := a3 he'
        rw [mainEvents_other e he']
        omega

theorem fits_ends {m : Mach} {base : Table} {bsys : Name → Nat} (hb : 0 < m.bcap) {g : Bool} {p : Name → Nat} : ∀ (k : Nat) (s : St) (as : List Acc) (l : List (Name × Byte)),
    2 * l.length + (s.buf .out).length + (s.buf .err).length ≤ k → Inv base bsys s as → Fits m g p s l → ∃ es s', Ev.ret ∉ es ∧ run m s (es ++ [.ret]) = some s' := by
  intro k
  induction k with
  | zero =>
    intro s as l hk hi hs
    obtain ⟨e, s1, h, hm⟩ := fits_live hi hb hs
    by_cases he : e = .ret
    · subst he
      exact ⟨[], s1, by simp, by simp [run, h]⟩
    · obtain ⟨l1, -, -, a3⟩ := fits_step hi hs he h
      have := a3 (fun i hi => by rcases hm with ⟨_, _, hm⟩ | ⟨_, hm⟩ | hm <;> rw [hm] at hi <;> cases hi)
      omega
  | succ k ih =>
    intro s as l hk hi hs
    obtain ⟨e, s1, h, hm⟩ := fits_live hi hb hs
    by_cases he : e = .ret
    · subst he
      exact ⟨[], s1, by simp, by simp [run, h]⟩
    · obtain ⟨l1, a1, -, a3⟩ := fits_step hi hs he h
      have := a3 (fun i hi => by rcases hm with ⟨_, _, hm⟩ | ⟨_, hm⟩ | hm <;> rw [hm] at hi <;> cases hi)
      obtain ⟨es, s2, b1, b2⟩ := ih s1 _ l1 (by omega) (inv_step m base bsys s s1 as hi e h) a1
      exact ⟨e :: es, s2, by simp [b1, Ne.symm he], by simp only [List.cons_append, run, h]; exact b2⟩

/-- C138: a C function that prints no more than fits into the pipes returns, whether it keeps the interpreter lock or not and whatever the threads do: a bounded number of its own events comes before
its return, and the return can always be reached. Without the bound the claim is false, see `never_left` and `can_hang`. -/
theorem call_ends_partial (m : Mach) (hbcap : 0 < m.bcap) (s s0 : St) (h1 : s.fds 1 ≠ none) (h2 : s.fds 2 ≠ none) (hf : s.frames = []) (before : List Ev)
    (hb : run m s before = some s0) (f : Frame) (fs : List Frame) (hfr : s0.frames = f :: fs) (g : Bool) (l : List (Name × Byte)) (hc : s0.call = some (g, l))
    (fit : ∀ n, count n l + (s0.buf n).length + (s0.pipes (f.pipe n)).length ≤ m.cap) (es : List Ev) (s' : St) (hl : Ev.ret ∉ es) (h : run m s0 es = some s') :
    mainEvents es ≤ 2 * l.length + (s0.buf .out).length + (s0.buf .err).length ∧ ∃ es' s'', Ev.ret ∉ es' ∧ run m s' (es' ++ [.ret]) = some s'' := by
  have hi := inv_run m s.fds s.sys before s s0 [] (inv_start s h1 h2 hf) hb
  have top := hi.top
  unfold Top at top
  rw [hfr] at top
  simp only at top
  have hex : f.exiting = false := by
    by_contra hx
    have := (top.2.2.2.1 (by simpa using hx)).2
    rw [hc] at this; cases this
  obtain ⟨l', a1, a2⟩ := fits_run es s0 s' _ l hi ⟨⟨f, fs, hfr, hex, rfl⟩, hc, fit⟩ hl h
  exact ⟨by omega, fits_ends hbcap _ s' _ l' (Nat.le_refl _) (inv_run m _ _ es s0 s' _ hi h) a1⟩

/-! ## Blocks that never end -/

/-- The thread of the innermost block is in `fflush` of a stream that is not empty, into its own pipe, which is full. -/
structure Hung (m : Mach) (n : Name) (f : Frame) (s : St) : Prop where
  frame : ∃ fs, s.frames = f :: fs
  phase : f.phase = .flush n
  buf : s.buf n ≠ []
  full : m.cap ≤ (s.pipes (f.pipe n)).length

theorem hung_step {m : Mach} {base : Table} {bsys : Name → Nat} {s s' : St} {as : List Acc} (hi : Inv base bsys s as) {n : Name} {f : Frame} (hs : Hung m n f s) {e : Ev}
    (h : step m s e = some s') : Hung m n f s' ∧ e ≠ .finish ∧ e ≠ .leave ∧ e ≠ .enter ∧ e ≠ .thread 0 := by
  obtain ⟨⟨fs, hf⟩, hph, hb, hfull⟩ := hs
  have tabs := hi.tabs
  have top := hi.top
  unfold Top at top
  rw [hf] at tabs top
  simp only at top
  have hex : f.exiting = false := by
    by_contra hx
    exact hb ((top.2.2.2.1 (by simpa using hx)).1 n)
  have hdn : f.done = false := by
    by_contra hx
    have := top.1 (top.2.1 (by simpa using hx))
    rw [hex] at this; cases this
  cases e with
  | py k t =>
    simp only [step] at h
    split at h
    · cases h
    simp only [Option.some.injEq] at h
    subst h
    exact ⟨⟨⟨fs, hf⟩, hph, hb, hfull⟩, by simp⟩
  | call g l =>
    simp only [step] at h
    split at h
    · cases h
    simp only [Option.some.injEq] at h
    subst h
    exact ⟨⟨⟨fs, hf⟩, hph, hb, hfull⟩, by simp⟩
  | put k b =>
    simp only [step] at h
    split at h
    · split at h
      · simp only [Option.some.injEq] at h
        subst h
        refine ⟨⟨⟨fs, hf⟩, hph, ?_, hfull⟩, by simp⟩
        show Function.update s.buf k (s.buf k ++ [b]) n ≠ []
        by_cases hk : n = k
        · subst hk; rw [Function.update_self]; simp
        · rw [Function.update_of_ne hk]; exact hb
      · cases h
    · cases h
  | drain k =>
    simp only [step] at h
    split at h
    · cases h
    rename_i b rest hbk
    unfold drainTo at h
    rw [tabs.target k] at h
    simp only at h
    split at h
    · rename_i hlt
      simp only [Option.some.injEq] at h
      subst h
      have hk : n ≠ k := by
        intro hk
        subst hk
        omega
      refine ⟨⟨⟨fs, hf⟩, hph, ?_, ?_⟩, by simp⟩
      · show Function.update s.buf k rest n ≠ []
        rw [Function.update_of_ne hk]; exact hb
      · show m.cap ≤ (Function.update s.pipes (f.pipe k) _ (f.pipe n)).length
        rw [Function.update_of_ne (fun e => hk (pipe_inj f e))]; exact hfull
    · cases h
  | ret =>
    simp only [step] at h
    split at h
    · simp only [Option.some.injEq] at h
      subst h
      exact ⟨⟨⟨fs, hf⟩, hph, hb, hfull⟩, by simp⟩
    · cases h
  | enter => cases n <;> simp [step, hb] at h
  | finish => cases n <;> simp [step, hb] at h
  | leave => simp [step, hf, hdn] at h
  | thread i =>
    obtain ⟨g', hg, -, -, h⟩ := step_thread h
    cases i with
    | zero =>
      rw [hf] at hg
      simp only [List.getElem?_cons_zero, Option.some.injEq] at hg
      subst hg
      unfold threadStep at h
      rw [hph] at h
      cases n <;> simp [hb] at h
    | succ i =>
      obtain ⟨a1, -, -⟩ := thread_frame h
      obtain ⟨⟨gs', b1⟩, b2⟩ := thread_other hi.ordered hf hg h
      exact ⟨⟨⟨gs', b1⟩, hph, by rw [a1]; exact hb, by rw [b2]; exact hfull⟩, by simp⟩

theorem hung_run {m : Mach} {base : Table} {bsys : Name → Nat} {n : Name} {f : Frame} : ∀ (es : List Ev) (s s' : St) (as : List Acc), Inv base bsys s as → Hung m n f s →
    run m s es = some s' → Hung m n f s' ∧ Ev.finish ∉ es ∧ Ev.leave ∉ es ∧ Ev.enter ∉ es ∧ Ev.thread 0 ∉ es
  | [], s, s', as, hi, hs, h => by
    simp only [run, Option.some.injEq] at h
    subst h
    exact ⟨hs, by simp⟩
  | e :: es, s, s', as, hi, hs, h => by
    simp only [run] at h
    cases hst : step m s e with
    | none => rw [hst] at h; cases h
    | some s1 =>
      rw [hst] at h
      obtain ⟨a1, a2, a3, a4, a5⟩ := hung_step hi hs hst
      obtain ⟨b1, b2, b3, b4, b5⟩ := hung_run es s1 s' _ (inv_step m base bsys s s1 as hi e hst) a1 h
      exact ⟨b1, by simp [b2, b3, b4, b5, Ne.symm a2, Ne.symm a3, Ne.symm a4, Ne.symm a5]⟩

/-- C138 (negation, finding): the thread calls `fflush` before it reads (wurlitzer.py 159-161). When the pipe is full at that moment and the buffer of the C library is not empty, the thread waits for
itself: in no execution is the block finished or left. -/
theorem never_left (m : Mach) (s s0 : St) (h1 : s.fds 1 ≠ none) (h2 : s.fds 2 ≠ none) (hf : s.frames = []) (before : List Ev) (hb : run m s before = some s0)
    (f : Frame) (fs : List Frame) (hfr : s0.frames = f :: fs) (n : Name) (hph : f.phase = .flush n) (hbuf : s0.buf n ≠ []) (hfull : m.cap ≤ (s0.pipes (f.pipe n)).length)
    (es : List Ev) (s' : St) (h : run m s0 es = some s') : Ev.finish ∉ es ∧ Ev.leave ∉ es ∧ Ev.enter ∉ es ∧ Ev.thread 0 ∉ es ∧ ∃ fs', s'.frames = f :: fs' := by
  obtain ⟨a1, a2, a3, a4, a5⟩ := hung_run es s0 s' _ (inv_run m s.fds s.sys before s s0 [] (inv_start s h1 h2 hf) hb) ⟨⟨fs, hfr⟩, hph, hbuf, hfull⟩ h
  exact ⟨a2, a3, a4, a5, a1.frame⟩

/-- Printing `k` bytes into the pipe. -/
theorem fill {m : Mach} {base : Table} {bsys : Name → Nat} (hbcap : 0 < m.bcap) (g : Bool) (f : Frame) (fs : List Frame) (rest : List (Name × Byte)) : ∀ (bs : List Byte) (s : St) (as : List Acc),
    Inv base bsys s as → s.frames = f :: fs → s.call = some (g, bs.map (Prod.mk .out) ++ rest) → s.buf .out = [] → (s.pipes (f.pipe .out)).length + bs.length ≤ m.cap →
    ∃ es s', run m s es = some s' ∧ s'.frames = f :: fs ∧ s'.call = some (g, rest) ∧ s'.buf .out = [] ∧ (s'.pipes (f.pipe .out)).length = (s.pipes (f.pipe .out)).length + bs.length
  | [], s, as, hi, hf, hc, hb, _ => ⟨[], s, rfl, hf, hc, hb, rfl⟩
  | b :: bs, s, as, hi, hf, hc, hb, hl => by
    rw [List.length_cons] at hl
    have e1 : step m s (.put .out b) = some { s with call := some (g, bs.map (Prod.mk .out) ++ rest), buf := Function.update s.buf .out [b] } := by
      simp [step, hc, hb, hbcap]
    have i1 := inv_step m base bsys _ _ as hi _ e1
    have t1 := i1.tabs
    simp only [hf] at t1
    have e2 : step m { s with call := some (g, bs.map (Prod.mk .out) ++ rest), buf := Function.update s.buf .out [b] } (.drain .out) =
        some { s with call := some (g, bs.map (Prod.mk .out) ++ rest), buf := Function.update (Function.update s.buf .out [b]) .out [],
                      pipes := Function.update s.pipes (f.pipe .out) (s.pipes (f.pipe .out) ++ [b]) } := by
      have hroom : (s.pipes (f.pipe .out)).length < m.cap := by omega
      simp only [step, Function.update_self, drainTo, t1.target .out, if_pos hroom]
    have i2 := inv_step m base bsys _ _ _ i1 _ e2
    obtain ⟨es, s', r1, r2, r3, r4, r5⟩ := fill hbcap g f fs rest bs _ _ i2 hf rfl (by simp) (by
      show (Function.update s.pipes (f.pipe .out) (s.pipes (f.pipe .out) ++ [b]) (f.pipe .out)).length + bs.length ≤ m.cap
      rw [Function.update_self, List.length_append, List.length_singleton]; omega)
    refine ⟨.put .out b :: .drain .out :: es, s', ?_, r2, r3, r4, ?_⟩
    · simp only [run, e1, Option.bind_some, e2]; exact r1
    · rw [r5]
      show (Function.update s.pipes (f.pipe .out) (s.pipes (f.pipe .out) ++ [b]) (f.pipe .out)).length + bs.length = _
      rw [Function.update_self, List.length_append, List.length_singleton, List.length_cons]; omega

/-- C138 (negation, finding): a block in which a C function prints one byte more than the pipe holds may never end, with or without the interpreter lock: when the thread has not come to its first
`select` yet there is an execution after which no execution leaves the block. -/
theorem can_hang (m : Mach) (hbcap : 0 < m.bcap) (s s0 : St) (h1 : s.fds 1 ≠ none) (h2 : s.fds 2 ≠ none) (hf : s.frames = []) (before : List Ev) (hb : run m s before = some s0)
    (f : Frame) (fs : List Frame) (hfr : s0.frames = f :: fs) (hph : f.phase = .flush .out) (hbuf : s0.buf .out = []) (hpipe : s0.pipes (f.pipe .out) = []) (g : Bool) (bs : List Byte)
    (hc : s0.call = some (g, bs.map (Prod.mk .out))) (hlen : m.cap < bs.length) :
    ∃ es s', run m s0 es = some s' ∧ ∀ es' s'', run m s' es' = some s'' → Ev.leave ∉ es' := by
  have hi := inv_run m s.fds s.sys before s s0 [] (inv_start s h1 h2 hf) hb
  obtain ⟨b, bs2, hbs⟩ : ∃ b bs2, bs.drop m.cap = b :: bs2 := by
    cases hd : bs.drop m.cap with
    | nil => have := congrArg List.length hd; rw [List.length_drop, List.length_nil] at this; omega
    | cons b bs2 => exact ⟨b, bs2, rfl⟩
  have hsplit : bs = bs.take m.cap ++ b :: bs2 := by rw [← hbs, List.take_append_drop]
  have hc' : s0.call = some (g, (bs.take m.cap).map (Prod.mk .out) ++ ((.out, b) :: bs2.map (Prod.mk .out))) := by
    rw [hc]
    conv_lhs => rw [hsplit]
    simp
  obtain ⟨es, s1, r1, r2, r3, r4, r5⟩ := fill (m := m) hbcap g f fs _ (bs.take m.cap) s0 _ hi hfr hc' hbuf (by rw [hpipe, List.length_take, List.length_nil]; omega)
  have e1 : step m s1 (.put .out b) = some { s1 with call := some (g, bs2.map (Prod.mk .out)), buf := Function.update s1.buf .out [b] } := by
    simp [step, r3, r4, hbcap]
  have hi1 := inv_run m _ _ es s0 s1 _ hi r1
  have hrun : ∀ (a : List Ev) (x y z : St) (e : Ev), run m x a = some y → step m y e = some z → run m x (a ++ [e]) = some z := by
    intro a
    induction a with
    | nil => intro x y z e h k; simp only [run, Option.some.injEq] at h; subst h; simp [run, k]
    | cons d a ih =>
      intro x y z e h k
      simp only [List.cons_append, run] at h ⊢
      cases hd : step m x d with
      | none => rw [hd] at h; cases h
      | some w => rw [hd] at h; exact ih w y z e h k
  refine ⟨es ++ [.put .out b], _, hrun es s0 s1 _ _ r1 e1, fun es' s'' h => ?_⟩
  refine (hung_run (n := .out) (f := f) es' _ s'' _ (inv_step m _ _ s1 _ _ hi1 _ e1) ⟨⟨fs, r2⟩, hph, ?_, ?_⟩ h).2.2.1
  · show Function.update s1.buf .out [b] .out ≠ []
    rw [Function.update_self]; simp
  · show m.cap ≤ (s1.pipes (f.pipe .out)).length
    rw [r5, hpipe, List.length_take, List.length_nil]; omega

/-- What a C function that keeps the lock has printed stays in the buffer and the pipe. -/
structure Stuck (m : Mach) (n : Name) (f : Frame) (fs : List Frame) (s : St) : Prop where
  frames : s.frames = f :: fs
  call : ∃ l, s.call = some (true, l) ∧ m.cap + m.bcap < count n l + (s.buf n).length + (s.pipes (f.pipe n)).length
  buf : (s.buf n).length ≤ m.bcap
  cap : (s.pipes (f.pipe n)).length ≤ m.cap

theorem stuck_step {m : Mach} {base : Table} {bsys : Name → Nat} {s s' : St} {as : List Acc} (hi : Inv base bsys s as) {n : Name} {f : Frame} {fs : List Frame} (hs : Stuck m n f fs s) {e : Ev}
    (h : step m s e = some s') : Stuck m n f fs s' ∧ e ≠ .ret := by
  obtain ⟨hf, ⟨l, hc, hbig⟩, hb, hcap⟩ := hs
  have hret : e ≠ .ret := by
    intro he
    subst he
    cases l with
    | nil => simp [count] at hbig; omega
    | cons x l => simp [step, hc] at h
  refine ⟨?_, hret⟩
  have hlock : s.locked = true := by unfold St.locked; rw [hc]
  have tabs := hi.tabs
  have top := hi.top
  unfold Top at top
  rw [hf] at tabs top
  simp only at top
  have hex : f.exiting = false := by
    by_contra hx
    have := (top.2.2.2.1 (by simpa using hx)).2
    rw [hc] at this; cases this
  have hdn : f.done = false := by
    by_contra hx
    have := top.1 (top.2.1 (by simpa using hx))
    rw [hex] at this; cases this
  cases e with
  | py n t => simp [step, hc] at h
  | call g l => simp [step, hc] at h
  | put k b =>
    simp only [step, hc] at h
    split at h
    · rename_i g' x l' hgl
      simp only [Option.some.injEq, Prod.mk.injEq] at hgl
      obtain ⟨rfl, rfl⟩ := hgl
      split at h
      · rename_i hx
        simp only [Option.some.injEq] at h
        subst h
        refine ⟨hf, ⟨l', rfl, ?_⟩, ?_, hcap⟩
        · rw [count_cons, hx.1] at hbig
          by_cases hk : k = n
          · subst hk
            simp only [Function.update_self, List.length_append, List.length_singleton, if_true] at hbig ⊢
            omega
          · simp only [Function.update_of_ne (Ne.symm hk), if_neg hk] at hbig ⊢
            omega
        · by_cases hk : k = n
          · subst hk
            simp only [Function.update_self, List.length_append, List.length_singleton]
            omega
          · simp only [Function.update_of_ne (Ne.symm hk)]
            exact hb
      · cases h
    · cases h
  | drain k =>
    simp only [step] at h
    split at h
    · cases h
    rename_i b rest hbk
    unfold drainTo at h
    rw [tabs.target k] at h
    simp only at h
    split at h
    · rename_i hlt
      simp only [Option.some.injEq] at h
      subst h
      by_cases hk : k = n
      · subst hk
        rw [hbk, List.length_cons] at hbig hb
        refine ⟨hf, ⟨l, hc, ?_⟩, ?_, ?_⟩
        · simp only [Function.update_self, List.length_append, List.length_singleton]
          omega
        · simp only [Function.update_self]; omega
        · simp only [Function.update_self, List.length_append, List.length_singleton]; omega
      · have hne : f.pipe n ≠ f.pipe k := fun e => hk (pipe_inj f e).symm
        refine ⟨hf, ⟨l, hc, ?_⟩, ?_, ?_⟩
        · simp only [Function.update_of_ne hne, Function.update_of_ne (Ne.symm hk)]; omega
        · simp only [Function.update_of_ne (Ne.symm hk)]; exact hb
        · simp only [Function.update_of_ne hne]; exact hcap
    · cases h
  | ret => exact absurd rfl hret
  | enter => simp [step, hc] at h
  | finish => simp [step, hc] at h
  | leave => simp [step, hf, hdn] at h
  | thread i => simp [step, hlock] at h

theorem stuck_run {m : Mach} {base : Table} {bsys : Name → Nat} {n : Name} {f : Frame} {fs : List Frame} : ∀ (es : List Ev) (s s' : St) (as : List Acc), Inv base bsys s as → Stuck m n f fs s →
    run m s es = some s' → Stuck m n f fs s' ∧ Ev.ret ∉ es
  | [], s, s', as, hi, hs, h => by
    simp only [run, Option.some.injEq] at h
    subst h
    exact ⟨hs, by simp⟩
  | e :: es, s, s', as, hi, hs, h => by
    simp only [run] at h
    cases hst : step m s e with
    | none => rw [hst] at h; cases h
    | some s1 =>
      rw [hst] at h
      obtain ⟨a1, a2⟩ := stuck_step hi hs hst
      obtain ⟨b1, b2⟩ := stuck_run es s1 s' _ (inv_step m base bsys s s1 as hi e hst) a1 h
      exact ⟨b1, by simp [b2, Ne.symm a2]⟩

/-- C138 (negation): a C function that keeps the interpreter lock and prints more than the buffer and the pipe hold never returns, in no execution. -/
theorem call_never_ends (m : Mach) (s s0 : St) (h1 : s.fds 1 ≠ none) (h2 : s.fds 2 ≠ none) (hf : s.frames = []) (before : List Ev) (hb : run m s before = some s0)
    (f : Frame) (fs : List Frame) (hfr : s0.frames = f :: fs) (n : Name) (l : List (Name × Byte)) (hc : s0.call = some (true, l)) (hbuf : s0.buf n = []) (hpipe : s0.pipes (f.pipe n) = [])
    (hbig : m.cap + m.bcap < count n l) (es : List Ev) (s' : St) (h : run m s0 es = some s') :
    Ev.ret ∉ es ∧ s'.call ≠ none ∧ s'.frames = s0.frames := by
  have hi := inv_run m s.fds s.sys before s s0 [] (inv_start s h1 h2 hf) hb
  have hs : Stuck m n f fs s0 := ⟨hfr, ⟨l, hc, by omega⟩, by rw [hbuf]; simp, by rw [hpipe]; simp⟩
  obtain ⟨a1, a2⟩ := stuck_run es s0 s' _ hi hs h
  obtain ⟨l', c1, -⟩ := a1.call
  exact ⟨a2, by rw [c1]; simp, by rw [a1.frames, hfr]⟩

end NBK.Capture
