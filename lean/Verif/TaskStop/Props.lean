import Verif.TaskStop.Model
import Verif.Batch.Props

/-! # What happens when the user's code leaves the loop -/
set_option linter.unusedSimpArgs false
namespace NBK.TaskStop
open NBK.Batch
variable {τ β : Type}

theorem srun_run {sync : Bool} {f : τ → β} {stops : τ → Bool} {tasks : List τ} {k : Nat} {s s' : St τ β} (h : SRun sync f stops tasks k s s') : Run sync f tasks k s s' := by
  induction h with
  | nil => exact .nil _
  | cons k s0 s1 s2 _ h ih => exact .cons _ _ _ _ ih h.step

theorem run_reach {sync : Bool} {f : τ → β} {tasks : List τ} {k : Nat} {s s' : St τ β} (h : Run sync f tasks k s s') : Reach sync f tasks s s' := by
  induction h with
  | nil => exact .refl _
  | cons k s0 s1 s2 _ h ih => exact .step _ _ _ ih h

theorem srun_trans {sync : Bool} {f : τ → β} {stops : τ → Bool} {tasks : List τ} {j k : Nat} {a b c : St τ β} (h1 : SRun sync f stops tasks j a b) (h2 : SRun sync f stops tasks k b c) :
    SRun sync f stops tasks (j + k) a c := by
  induction h2 with
  | nil => exact h1
  | cons k s0 s1 s2 _ h ih => exact .cons _ _ _ _ (ih h1) h

/-- **Termination**: also with groups that stop an execution has at most `6 tasks + 5 groups` steps; then nothing happens any more. -/
theorem stop_bound (sync : Bool) (f : τ → β) (stops : τ → Bool) (tasks : List τ) (W k : Nat) (s : St τ β) (h : SRun sync f stops tasks k (init τ β W) s) :
    k ≤ 6 * tasks.length + 5 * W := run_bound sync f tasks W k s (srun_run h)

/-- **At most once** at any time, whatever stops. -/
theorem stop_at_most_once (sync : Bool) (f : τ → β) (stops : τ → Bool) (tasks : List τ) (W k : Nat) (s : St τ β) (h : SRun sync f stops tasks k (init τ β W) s) :
    ((s.ws.flatMap (·.results)).map (·.1)).Nodup ∧ ∀ p ∈ s.ws.flatMap (·.results), ∃ t, tasks[p.1]? = some t ∧ p.2 = f t := by
  obtain ⟨h1, h2⟩ := at_most_once sync f tasks W s (run_reach (srun_run h))
  refine ⟨h1, fun p hp => ?_⟩
  have := h2 p hp
  unfold taskResult at this
  cases e : tasks[p.1]? with
  | none => rw [e] at this; simp at this
  | some t =>
    rw [e] at this
    simp only [Option.map_some, Option.some.injEq] at this
    exact ⟨t, rfl, by rw [← this]⟩

/-- The tasks that a group has or is about to get are those of the list, and results are of tasks that do not stop. -/
def Placed (stops : τ → Bool) (tasks : List τ) (w : Worker τ β) : Prop :=
  (∀ i t, w.pc = .computing i t → tasks[i]? = some t) ∧ (∀ i t, ToWorker.start i t ∈ w.inb → tasks[i]? = some t)
    ∧ (∀ p ∈ w.results, ∃ t, tasks[p.1]? = some t ∧ stops t = false)

theorem placed_step (sync : Bool) (f : τ → β) (stops : τ → Bool) (tasks : List τ) (s s' : St τ β) (h : SStep sync f stops tasks s s') (hi : ∀ w ∈ s.ws, Placed stops tasks w) :
    ∀ w ∈ s'.ws, Placed stops tasks w := by
  have lift : ∀ (pre post : List (Worker τ β)) (a b : Worker τ β), (∀ w ∈ pre ++ a :: post, Placed stops tasks w) → (Placed stops tasks a → Placed stops tasks b) →
      ∀ w ∈ pre ++ b :: post, Placed stops tasks w := by
    intro pre post a b ha hab w hw
    rw [List.mem_append, List.mem_cons] at hw
    rcases hw with hw | rfl | hw
    · exact ha w (List.mem_append_left _ hw)
    · exact hab (ha a (by simp))
    · exact ha w (by simp [hw])
  obtain ⟨hs, hh⟩ := h
  cases hs with
  | sendReady n c pre post o b res h => exact lift _ _ _ _ hi fun ⟨_, h2, h3⟩ => ⟨by simp, h2, h3⟩
  | recvStart n c pre post o b res i t h =>
    refine lift _ _ _ _ hi fun ⟨_, h2, h3⟩ => ⟨?_, fun i t hm => h2 i t (List.mem_cons_of_mem _ hm), h3⟩
    intro i' t' e
    simp only [Pc.computing.injEq] at e
    obtain ⟨rfl, rfl⟩ := e
    exact h2 i t (List.mem_cons_self ..)
  | recvExit n c pre post o b res h => exact lift _ _ _ _ hi fun ⟨_, h2, h3⟩ => ⟨by simp, fun i t hm => h2 i t (List.mem_cons_of_mem _ hm), h3⟩
  | compute n c pre post o b res i t =>
    have hst : stops t = false := by
      by_contra hc
      have := hh pre.length ⟨.computing i t, o, b, res⟩ (by simp) (by simpa [halted] using hc)
      simp at this
    refine lift _ _ _ _ hi fun ⟨h1, h2, h3⟩ => ⟨by simp, h2, ?_⟩
    intro p hp
    rw [List.mem_append, List.mem_singleton] at hp
    rcases hp with hp | rfl
    · exact h3 p hp
    · exact ⟨t, h1 i t rfl, hst⟩
  | sendDone n c pre post o b res i h => exact lift _ _ _ _ hi fun ⟨_, h2, h3⟩ => ⟨by simp, h2, h3⟩
  | sendExit n c pre post o b res h => exact lift _ _ _ _ hi fun ⟨_, h2, h3⟩ => ⟨by simp, h2, h3⟩
  | mStart n c pre post pc o b res t hc hs ht =>
    refine lift _ _ _ _ hi fun ⟨h1, h2, h3⟩ => ⟨h1, ?_, h3⟩
    intro i' t' hm
    rw [List.mem_append, List.mem_singleton] at hm
    rcases hm with hm | hm
    · exact h2 i' t' hm
    · cases hm; exact ht
  | mExit n c pre post pc o b res hc hs ht =>
    refine lift _ _ _ _ hi fun ⟨h1, h2, h3⟩ => ⟨h1, ?_, h3⟩
    intro i' t' hm
    rw [List.mem_append, List.mem_singleton] at hm
    rcases hm with hm | hm
    · exact h2 i' t' hm
    · cases hm
  | mDone n c pre post pc o b res i hc hs => exact lift _ _ _ _ hi fun h => h
  | mClosed n c pre post pc o b res hc hs => exact lift _ _ _ _ hi fun h => h

theorem placed_run (sync : Bool) (f : τ → β) (stops : τ → Bool) (tasks : List τ) (W k : Nat) (s : St τ β) (h : SRun sync f stops tasks k (init τ β W) s) :
    ∀ w ∈ s.ws, Placed stops tasks w := by
  generalize hs0 : init τ β W = s00 at h
  induction h with
  | nil =>
    subst hs0
    intro w hw
    simp only [init, List.mem_replicate] at hw
    rw [hw.2]
    exact ⟨by simp, by simp, by simp⟩
  | cons k s0 s1 s2 _ h ih => exact placed_step sync f stops tasks _ _ h (ih hs0)

/-- The results are those of tasks that do not stop. -/
theorem results_of_others (sync : Bool) (f : τ → β) (stops : τ → Bool) (tasks : List τ) (W k : Nat) (s : St τ β) (h : SRun sync f stops tasks k (init τ β W) s) :
    ∀ p ∈ s.ws.flatMap (·.results), ∃ t, tasks[p.1]? = some t ∧ p.2 = f t ∧ stops t = false := by
  intro p hp
  obtain ⟨t, h1, h2⟩ := (stop_at_most_once sync f stops tasks W k s h).2 p hp
  rw [List.mem_flatMap] at hp
  obtain ⟨w, hw, hp⟩ := hp
  obtain ⟨t', h1', h3⟩ := (placed_run sync f stops tasks W k s h w hw).2.2 p hp
  rw [h1] at h1'
  cases h1'
  exact ⟨t, h1, h2, h3⟩

/-- **Nobody returns.** A group that has stopped stays there, and in no continuation does the root leave its loop: `map` and `iterate` return on no rank but those that raised or broke out. -/
theorem halted_forever (sync : Bool) (f : τ → β) (stops : τ → Bool) (tasks : List τ) (W j k : Nat) (s s' : St τ β) (h : SRun sync f stops tasks j (init τ β W) s)
    (m : Nat) (w : Worker τ β) (hw : s.ws[m]? = some w) (hh : halted stops w = true) (h' : SRun sync f stops tasks k s s') :
    (∃ w', s'.ws[m]? = some w' ∧ w'.pc = w.pc) ∧ s'.closed < W := by
  have hst : ∃ w', s'.ws[m]? = some w' ∧ w'.pc = w.pc := by
    clear h
    induction h' with
    | nil => exact ⟨w, hw, rfl⟩
    | cons k s0 s1 s2 _ hs ih =>
      obtain ⟨w1, e1, e2⟩ := ih hw
      have := hs.still m w1 e1 (by unfold halted at hh ⊢; rw [e2]; exact hh)
      cases e : s2.ws[m]? with
      | none => rw [e] at this; simp at this
      | some w2 =>
        rw [e] at this
        simp only [Option.map_some, Option.some.injEq] at this
        exact ⟨w2, rfl, this.trans e2⟩
  refine ⟨hst, ?_⟩
  obtain ⟨w', e1, e2⟩ := hst
  have hr := run_reach (srun_run (srun_trans h h'))
  have hinv := inv_reach sync f tasks W s' hr
  have hlen := reach_length sync f tasks W s' hr
  obtain ⟨pre, post, e3⟩ := List.append_of_mem (List.mem_of_getElem? e1)
  have : isClosed w' = 0 := by
    unfold halted at hh
    unfold isClosed
    rw [e2]
    cases hp : w.pc <;> rw [hp] at hh <;> simp_all
  have hlt := closed_lt pre post w' this
  rw [← e3] at hlt
  rw [hinv.closed]
  omega

theorem returns_closed (s : St τ β) (h : Returns s) : s.closed = s.ws.length := h.1

/-- **Return.** There is an execution in which `map` returns exactly if no task stops; then all executions can be continued to one in which it returns the values in order. -/
theorem returns_iff (sync : Bool) (f : τ → β) (stops : τ → Bool) (tasks : List τ) (W : Nat) (hW : 1 ≤ W) :
    (∃ k s, SRun sync f stops tasks k (init τ β W) s ∧ Returns s) ↔ ∀ t ∈ tasks, stops t = false := by
  constructor
  · rintro ⟨k, s, h, hr⟩ t ht
    have hreach := run_reach (srun_run h)
    have hlen := reach_length sync f tasks W s hreach
    have hinv := inv_reach sync f tasks W s hreach
    have hall := all_closed s.ws (by rw [← hinv.closed]; exact hr.1)
    have hx : ∀ w ∈ s.ws, w.results = held f w ∧ s.next = tasks.length := by
      intro w hm
      have h1 := hall w hm
      have h2 := hinv.w w hm
      obtain ⟨pc, o, b, res⟩ := w
      cases pc <;> simp [isClosed] at h1
      simp [WInv] at h2
      simp [held, h2.1, h2.2.2]
    obtain ⟨w0, hw0⟩ : ∃ w, w ∈ s.ws := List.exists_mem_of_length_pos (by omega)
    have hn := (hx w0 hw0).2
    obtain ⟨i, hi, e⟩ := List.getElem_of_mem ht
    have hmem : (i, f t) ∈ s.ws.flatMap (held f) := by
      refine hinv.acc.symm.subset ?_
      rw [hn]
      simp only [expected, List.take_length, List.mem_mapIdx]
      exact ⟨i, hi, by rw [e]⟩
    rw [List.mem_flatMap] at hmem
    obtain ⟨w, hw, hp⟩ := hmem
    rw [← (hx w hw).1] at hp
    obtain ⟨t', e1, _, e3⟩ := results_of_others sync f stops tasks W k s h (i, f t) (List.mem_flatMap.2 ⟨w, hw, hp⟩)
    dsimp only at e1
    rw [List.getElem?_eq_getElem hi, e] at e1
    cases e1
    exact e3
  · intro hno
    have nohalt : ∀ (s : St τ β), (∀ w ∈ s.ws, Placed stops tasks w) → ∀ w ∈ s.ws, halted stops w = false := by
      intro s hp w hw
      unfold halted
      cases hpc : w.pc with
      | computing i t => exact hno t (List.mem_of_getElem? ((hp w hw).1 i t hpc))
      | _ => rfl
    have key : ∀ (d k : Nat) s, SRun sync f stops tasks k (init τ β W) s → weight tasks s ≤ d → ∃ k s, SRun sync f stops tasks k (init τ β W) s ∧ Returns s := by
      intro d
      induction d with
      | zero =>
        intro k s h hd
        rcases no_deadlock sync f tasks W s (run_reach (srun_run h)) with ⟨s', hs'⟩ | ⟨h1, h2⟩
        · have := weight_step sync f tasks s s' hs'; omega
        · exact ⟨k, s, h, h1, fun w hw => by rw [(h2 w hw).1]; trivial⟩
      | succ d ih =>
        intro k s h hd
        rcases no_deadlock sync f tasks W s (run_reach (srun_run h)) with ⟨s', hs'⟩ | ⟨h1, h2⟩
        · have hlt := weight_step sync f tasks s s' hs'
          refine ih (k + 1) s' (.cons _ _ _ _ h ⟨hs', fun m w hw hh => ?_⟩) (by omega)
          rw [nohalt s (placed_run sync f stops tasks W k s h) w (List.mem_of_getElem? hw)] at hh
          cases hh
        · exact ⟨k, s, h, h1, fun w hw => by rw [(h2 w hw).1]; trivial⟩
    exact key _ 0 _ (.nil _) (Nat.le_refl _)

theorem still_of (stops : τ → Bool) (pre post : List (Worker τ β)) (a b : Worker τ β) (h : halted stops a = true → b.pc = a.pc) :
    ∀ (k : Nat) w, (pre ++ a :: post)[k]? = some w → halted stops w = true → ((pre ++ b :: post)[k]?).map (·.pc) = some w.pc := by
  intro k w hw hh
  by_cases hk : k < pre.length
  · rw [List.getElem?_append_left hk] at hw ⊢
    rw [hw]; rfl
  · rw [List.getElem?_append_right (by omega)] at hw ⊢
    cases hm : k - pre.length with
    | zero =>
      rw [hm] at hw
      simp only [List.getElem?_cons_zero, Option.some.injEq] at hw
      subst hw
      simp [h hh]
    | succ j =>
      rw [hm] at hw
      simp only [List.getElem?_cons_succ] at hw ⊢
      rw [hw]; rfl

/-- The task of this number is one that does not stop. -/
def goes (stops : τ → Bool) (tasks : List τ) (p : Nat × β) : Bool := ((tasks[p.1]?).map fun t => !stops t).getD false

/-- **The end.** When nothing can happen any more every group has exited, with the knowledge of the root, or has stopped at a task. If some group has not stopped, all tasks were handed out, and every task
that does not stop has been computed exactly once. -/
theorem quiescent (sync : Bool) (f : τ → β) (stops : τ → Bool) (tasks : List τ) (W k : Nat) (s : St τ β) (h : SRun sync f stops tasks k (init τ β W) s)
    (hq : ∀ s', ¬ SStep sync f stops tasks s s') :
    (∀ w ∈ s.ws, halted stops w = true ∨ (w.pc = .exited ∧ w.out = [] ∧ w.inb = [])) ∧
    ((∃ w ∈ s.ws, halted stops w = false) → s.next = tasks.length ∧
      (s.ws.flatMap (·.results)).Perm ((tasks.mapIdx fun i t => (i, f t)).filter (goes stops tasks))) := by
  have hinv := inv_reach sync f tasks W s (run_reach (srun_run h))
  have hpl := placed_run sync f stops tasks W k s h
  have hres := results_of_others sync f stops tasks W k s h
  obtain ⟨n, c, ws⟩ := s
  obtain ⟨le, hw, hc, acc⟩ := hinv
  have hb : ∀ w ∈ ws, w.inb = [] := by
    rintro ⟨pc, o, b, res⟩ hm
    by_contra hne
    have hi := hw _ hm
    obtain ⟨pre, post, rfl⟩ := List.append_of_mem hm
    cases pc <;> simp only [WInv] at hi hne <;> simp [hne] at hi
    obtain ⟨rfl, ⟨i, t, rfl⟩ | ⟨rfl, _⟩⟩ := hi
    · exact hq _ ⟨Step.recvStart _ _ _ _ _ _ _ _ _ (by simp), still_of _ _ _ _ _ (by simp [halted])⟩
    · exact hq _ ⟨Step.recvExit _ _ _ _ _ _ _ (by simp), still_of _ _ _ _ _ (by simp [halted])⟩
  have ho : ∀ w ∈ ws, w.out = [] := by
    rintro ⟨pc, o, b, res⟩ hm
    by_contra hne
    obtain ⟨pre, post, rfl⟩ := List.append_of_mem hm
    cases o with
    | nil => simp at hne
    | cons m o =>
      have hz : isClosed (⟨pc, m :: o, b, res⟩ : Worker τ β) = 0 := by cases pc <;> simp [isClosed]
      have hlt : c < (pre ++ ⟨pc, m :: o, b, res⟩ :: post).length := by
        have := closed_lt pre post _ hz
        simp only at hc; omega
      cases m with
      | ready =>
        by_cases hn : n < tasks.length
        · exact hq _ ⟨Step.mStart _ _ _ _ _ _ _ _ _ hlt (fun _ => hb) (List.getElem?_eq_getElem hn), still_of _ _ _ _ _ (fun _ => rfl)⟩
        · exact hq _ ⟨Step.mExit _ _ _ _ _ _ _ _ hlt (fun _ => hb) hn, still_of _ _ _ _ _ (fun _ => rfl)⟩
      | done i => exact hq _ ⟨Step.mDone _ _ _ _ _ _ _ _ _ hlt (fun _ => hb), still_of _ _ _ _ _ (fun _ => rfl)⟩
      | exit => exact hq _ ⟨Step.mClosed _ _ _ _ _ _ _ _ hlt (fun _ => hb), still_of _ _ _ _ _ (fun _ => rfl)⟩
  have h1 : ∀ w ∈ ws, halted stops w = true ∨ (w.pc = .exited ∧ w.out = [] ∧ w.inb = []) := by
    rintro ⟨pc, o, b, res⟩ hm
    have hi := hw _ hm
    have e1 := ho _ hm
    have e2 := hb _ hm
    simp only at e1 e2
    subst e1; subst e2
    obtain ⟨pre, post, rfl⟩ := List.append_of_mem hm
    cases pc with
    | top => exact absurd ⟨Step.sendReady _ _ _ _ _ _ _ (by simp), still_of _ _ _ _ _ (by simp [halted])⟩ (hq _)
    | waiting => simp [WInv] at hi
    | computing i t =>
      by_cases hst : stops t = true
      · exact Or.inl hst
      · exact absurd ⟨Step.compute _ _ _ _ _ _ _ _ _, still_of _ _ _ _ _ (by simp [halted, hst])⟩ (hq _)
    | reporting i => exact absurd ⟨Step.sendDone _ _ _ _ _ _ _ _ (by simp), still_of _ _ _ _ _ (by simp [halted])⟩ (hq _)
    | exiting => exact absurd ⟨Step.sendExit _ _ _ _ _ _ _ (by simp), still_of _ _ _ _ _ (by simp [halted])⟩ (hq _)
    | exited => exact Or.inr ⟨rfl, rfl, rfl⟩
  refine ⟨h1, fun ⟨w, hm, hnh⟩ => ?_⟩
  have hn : n = tasks.length := by
    rcases h1 w hm with e | ⟨e, _, _⟩
    · rw [hnh] at e; cases e
    · have hi := hw w hm
      unfold WInv at hi
      rw [e] at hi
      exact hi.2.2
  refine ⟨hn, ?_⟩
  have hf := acc.filter (goes stops tasks)
  dsimp only at hf
  rw [hn] at hf
  have e1 : expected f tasks tasks.length = tasks.mapIdx fun i t => (i, f t) := by simp [expected]
  rw [e1] at hf
  refine List.Perm.trans (List.Perm.of_eq ?_) hf
  rw [List.filter_flatMap, List.flatMap_def, List.flatMap_def]
  congr 1
  apply List.map_congr_left
  intro w hm
  have hr : w.results.filter (goes stops tasks) = w.results := by
    rw [List.filter_eq_self]
    intro p hp
    obtain ⟨t, q1, _, q3⟩ := hres p (List.mem_flatMap.2 ⟨w, hm, hp⟩)
    simp [goes, q1, q3]
  rw [held, List.filter_append, List.filter_append, hr, hb w hm]
  rcases h1 w hm with e | ⟨e, _, _⟩
  · cases hpc : w.pc with
    | computing i t =>
      have := (hpl w hm).1 i t hpc
      have hst : stops t = true := by unfold halted at e; rw [hpc] at e; exact e
      simp [goes, this, hst]
    | _ => unfold halted at e; rw [hpc] at e; cases e
  · rw [e]; simp

theorem count_stops (f : τ → β) (stops : τ → Bool) (tasks : List τ) : (tasks.mapIdx fun i t => (i, f t)).countP (fun p => !goes stops tasks p) = tasks.countP stops := by
  rw [List.mapIdx_eq_zipIdx_map, List.countP_map]
  have e : tasks.countP stops = (tasks.zipIdx.map Prod.fst).countP stops := by rw [List.zipIdx_map_fst]
  rw [e, List.countP_map]
  apply List.countP_congr
  rintro ⟨t, i⟩ hm
  have := List.mem_zipIdx' hm
  simp only [Function.comp, goes, List.getElem?_eq_getElem this.1, Option.map_some, Option.getD_some, Bool.not_not]
  rw [← this.2]

/-- **Few stops.** If fewer tasks stop than there are groups, then at the end all the others have been computed, though nobody gets their values. -/
theorem few_stops (sync : Bool) (f : τ → β) (stops : τ → Bool) (tasks : List τ) (W k : Nat) (s : St τ β) (h : SRun sync f stops tasks k (init τ β W) s)
    (hq : ∀ s', ¬ SStep sync f stops tasks s s') (hfew : tasks.countP stops < W) :
    s.next = tasks.length ∧ (s.ws.flatMap (·.results)).Perm ((tasks.mapIdx fun i t => (i, f t)).filter (goes stops tasks)) := by
  refine (quiescent sync f stops tasks W k s h hq).2 ?_
  by_contra hc
  push Not at hc
  have hreach := run_reach (srun_run h)
  have hinv := inv_reach sync f tasks W s hreach
  have hlen := reach_length sync f tasks W s hreach
  have hpl := placed_run sync f stops tasks W k s h
  have h1 : ∀ l : List (Worker τ β), (∀ w ∈ l, Placed stops tasks w ∧ halted stops w ≠ false) → l.length ≤ (l.flatMap (held f)).countP (fun p => !goes stops tasks p) := by
    intro l
    induction l with
    | nil => intro _; simp
    | cons w l ih =>
      intro hl
      have ih := ih fun v hv => hl v (List.mem_cons_of_mem _ hv)
      obtain ⟨p1, p2⟩ := hl w (List.mem_cons_self ..)
      rw [List.flatMap_cons, List.countP_append, List.length_cons]
      have : 0 < (held f w).countP (fun p => !goes stops tasks p) := by
        rw [List.countP_pos_iff]
        cases hpc : w.pc with
        | computing i t =>
          have hst : stops t = true := by unfold halted at p2; rw [hpc] at p2; simpa using p2
          refine ⟨(i, f t), ?_, ?_⟩
          · unfold held; rw [hpc]; simp
          · simp [goes, p1.1 i t hpc, hst]
        | _ => unfold halted at p2; rw [hpc] at p2; exact absurd rfl p2
      omega
  have h2 := h1 s.ws fun w hw => ⟨hpl w hw, hc w hw⟩
  rw [hinv.acc.countP_eq] at h2
  have h3 : (expected f tasks s.next).countP (fun p => !goes stops tasks p) ≤ (tasks.mapIdx fun i t => (i, f t)).countP (fun p => !goes stops tasks p) := by
    refine List.Sublist.countP_le ?_
    have : expected f tasks s.next = (tasks.mapIdx fun i t => (i, f t)).take s.next := by
      apply List.ext_getElem <;> simp [expected]
    rw [this]
    exact List.take_sublist _ _
  rw [count_stops] at h3
  omega

/-- Every execution comes to such an end. -/
theorem reaches_end (sync : Bool) (f : τ → β) (stops : τ → Bool) (tasks : List τ) (W k : Nat) (s : St τ β) (h : SRun sync f stops tasks k (init τ β W) s) :
    ∃ j s', SRun sync f stops tasks j s s' ∧ ∀ s'', ¬ SStep sync f stops tasks s' s'' := by
  have key : ∀ (d : Nat) (s : St τ β), weight tasks s ≤ d → ∃ j s', SRun sync f stops tasks j s s' ∧ ∀ s'', ¬ SStep sync f stops tasks s' s'' := by
    intro d
    induction d with
    | zero =>
      intro s hd
      exact ⟨0, s, .nil _, fun s'' hs => by have := weight_step sync f tasks s s'' hs.step; omega⟩
    | succ d ih =>
      intro s hd
      by_cases hs : ∃ s', SStep sync f stops tasks s s'
      · obtain ⟨s', hs'⟩ := hs
        have := weight_step sync f tasks s s' hs'.step
        obtain ⟨j, s2, r, q⟩ := ih s' (by omega)
        exact ⟨1 + j, s2, srun_trans (.cons _ _ _ _ (.nil _) hs') r, q⟩
      · exact ⟨0, s, .nil _, fun s'' hh => hs ⟨s'', hh⟩⟩
  exact key _ s (Nat.le_refl _)

/-! ## Iterators -/

/-- With an iterator as `tasks` the root raises, no task is run, and no group leaves its loop: at the end all wait for an answer. -/
theorem iterator_waits (sync : Bool) (f : τ → β) (stops : τ → Bool) (l : List τ) (W : Nat) (s : St τ β) (h : TReach sync f stops (.iterator l) (init τ β W) s) :
    (∀ w ∈ s.ws, w.results = [] ∧ w.inb = [] ∧ ((w.pc = .top ∧ w.out = []) ∨ (w.pc = .waiting ∧ w.out = [.ready])))
    ∧ ((∀ s', ¬ TStep sync f stops (.iterator l) s s') → ∀ w ∈ s.ws, w.pc = .waiting) := by
  have inv : ∀ w ∈ s.ws, w.results = [] ∧ w.inb = [] ∧ ((w.pc = .top ∧ w.out = []) ∨ (w.pc = .waiting ∧ w.out = [.ready])) := by
    generalize hs0 : init τ β W = s00 at h
    induction h with
    | refl =>
      subst hs0
      intro w hw
      simp only [init, List.mem_replicate] at hw
      rw [hw.2]
      exact ⟨rfl, rfl, Or.inl ⟨rfl, rfl⟩⟩
    | step s1 s2 _ h ih =>
      obtain ⟨hs, hd⟩ := h
      cases hs with
      | sendReady n c pre post o b res h =>
        intro w hw
        rw [List.mem_append, List.mem_cons] at hw
        rcases hw with hw | rfl | hw
        · exact ih w (List.mem_append_left _ hw)
        · obtain ⟨q1, q2, q3⟩ := ih ⟨.top, o, b, res⟩ (by simp)
          simp at q1 q2 q3
          subst q1 q2 q3
          exact ⟨rfl, rfl, Or.inr ⟨rfl, rfl⟩⟩
        · exact ih w (by simp [hw])
      | recvStart n c pre post o b res i t h => have := ih ⟨.waiting, o, .start i t :: b, res⟩ (by simp); simp at this
      | recvExit n c pre post o b res h => have := ih ⟨.waiting, o, .exit :: b, res⟩ (by simp); simp at this
      | compute n c pre post o b res i t => have := ih ⟨.computing i t, o, b, res⟩ (by simp); simp at this
      | sendDone n c pre post o b res i h => have := ih ⟨.reporting i, o, b, res⟩ (by simp); simp at this
      | sendExit n c pre post o b res h => have := ih ⟨.exiting, o, b, res⟩ (by simp); simp at this
      | mStart n c pre post pc o b res t hc hs ht =>
        have := (hd pre.length ⟨pc, .ready :: o, b, res⟩ ⟨pc, o, b ++ [.start n t], res⟩ (by simp) (by simp)).length_le
        simp at this
        omega
      | mExit n c pre post pc o b res hc hs ht =>
        have := (hd pre.length ⟨pc, .ready :: o, b, res⟩ ⟨pc, o, b ++ [.exit], res⟩ (by simp) (by simp)).length_le
        simp at this
        omega
      | mDone n c pre post pc o b res i hc hs =>
        have := (hd pre.length ⟨pc, .done i :: o, b, res⟩ ⟨pc, o, b, res⟩ (by simp) (by simp)).length_le
        simp at this
        omega
      | mClosed n c pre post pc o b res hc hs =>
        have := (hd pre.length ⟨pc, .exit :: o, b, res⟩ ⟨pc, o, b, res⟩ (by simp) (by simp)).length_le
        simp at this
        omega
  refine ⟨inv, fun hq => ?_⟩
  rintro ⟨pc, o, b, res⟩ hm
  obtain ⟨q1, q2, q3 | q3⟩ := inv _ hm
  · obtain ⟨e1, e2⟩ := q3
    dsimp only at e1 e2
    subst e1 e2
    obtain ⟨n, c, ws⟩ := s
    obtain ⟨pre, post, rfl⟩ := List.append_of_mem hm
    refine absurd (⟨Step.sendReady n c pre post [] b res (by simp), ?_⟩ : LoneStep sync f l _ _) (hq _)
    intro k w w' h1 h2
    by_cases hk : k < pre.length
    · dsimp only at h1 h2
      rw [List.getElem?_append_left hk] at h1 h2
      rw [h1] at h2
      cases h2
      exact List.prefix_refl _
    · dsimp only at h1 h2
      rw [List.getElem?_append_right (by omega)] at h1 h2
      cases hm : k - pre.length with
      | zero =>
        rw [hm] at h1 h2
        simp at h1 h2
        subst h1 h2
        exact List.nil_prefix
      | succ j =>
        rw [hm] at h1 h2
        simp only [List.getElem?_cons_succ] at h1 h2
        rw [h1] at h2
        cases h2
        exact List.prefix_refl _
  · exact q3.1

/-! ## Cases -/

/-- Two groups, two tasks, the task `0` stops: the other group computes the square of the other, exits, and the root waits for the first group. -/
theorem case_stop : SRun false (fun x : Nat => x * x) (fun t => t == 0) [0, 2] 14 (init Nat Nat 2)
      ⟨2, 1, [⟨.computing 0 0, [], [], []⟩, ⟨.exited, [], [], [(1, 4)]⟩]⟩ := by
  have st : ∀ (pre post : List (Worker Nat Nat)) (a b : Worker Nat Nat), _ := still_of (fun t => t == 0)
  refine .cons _ _ _ _ ?_ ⟨.mClosed _ _ [⟨.computing 0 0, [], [], []⟩] [] _ _ _ _ (by decide) (by simp), st _ _ _ _ (by simp [halted])⟩
  refine .cons _ _ _ _ ?_ ⟨.sendExit _ _ [⟨.computing 0 0, [], [], []⟩] [] [] _ _ (by simp), st _ _ _ _ (by simp [halted])⟩
  refine .cons _ _ _ _ ?_ ⟨.recvExit _ _ [⟨.computing 0 0, [], [], []⟩] [] _ _ _ (by simp), st _ _ _ _ (by simp [halted])⟩
  refine .cons _ _ _ _ ?_ ⟨.mExit _ _ [⟨.computing 0 0, [], [], []⟩] [] _ _ [] _ (by decide) (by simp) (by decide), st _ _ _ _ (by simp [halted])⟩
  refine .cons _ _ _ _ ?_ ⟨.mDone _ _ [⟨.computing 0 0, [], [], []⟩] [] _ _ _ _ 1 (by decide) (by simp), st _ _ _ _ (by simp [halted])⟩
  refine .cons _ _ _ _ ?_ ⟨.sendReady _ _ [⟨.computing 0 0, [], [], []⟩] [] [.done 1] _ _ (by simp), st _ _ _ _ (by simp [halted])⟩
  refine .cons _ _ _ _ ?_ ⟨.sendDone _ _ [⟨.computing 0 0, [], [], []⟩] [] [] _ _ _ (by simp), st _ _ _ _ (by simp [halted])⟩
  refine .cons _ _ _ _ ?_ ⟨.compute _ _ [⟨.computing 0 0, [], [], []⟩] [] _ _ [] 1 2, st _ _ _ _ (by simp [halted])⟩
  refine .cons _ _ _ _ ?_ ⟨.recvStart _ _ [⟨.computing 0 0, [], [], []⟩] [] _ _ _ _ _ (by simp), st _ _ _ _ (by simp [halted])⟩
  refine .cons _ _ _ _ ?_ ⟨.mStart _ _ [⟨.computing 0 0, [], [], []⟩] [] _ _ [] _ 2 (by decide) (by simp) rfl, st _ _ _ _ (by simp [halted])⟩
  refine .cons _ _ _ _ ?_ ⟨.sendReady _ _ [⟨.computing 0 0, [], [], []⟩] [] [] _ _ (by simp), st _ _ _ _ (by simp [halted])⟩
  refine .cons _ _ _ _ ?_ ⟨.recvStart _ _ [] [⟨.top, [], [], []⟩] _ _ _ _ _ (by simp), st _ _ _ _ (by simp [halted])⟩
  refine .cons _ _ _ _ ?_ ⟨.mStart _ _ [] [⟨.top, [], [], []⟩] _ _ [] _ 0 (by decide) (by simp) rfl, st _ _ _ _ (by simp [halted])⟩
  refine .cons 0 _ ⟨0, 0, [⟨.top, [], [], []⟩, ⟨.top, [], [], []⟩]⟩ _ (.nil _) ⟨.sendReady _ _ [] [⟨.top, [], [], []⟩] [] _ _ (by simp), ?_⟩
  exact st [] [⟨.top, [], [], []⟩] ⟨.top, [], [], []⟩ ⟨.waiting, [.ready], [], []⟩ (by simp [halted])

end NBK.TaskStop
