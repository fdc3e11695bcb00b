import Verif.TaskMgr.Model
import Verif.Batch.Props

/-!
# The ranks of a group act as the one process of `Verif.Batch`
-/
set_option linter.unusedSimpArgs false
namespace NBK.TaskMgr
open NBK.Batch
variable {τ β : Type}

/-- A group that has received a message will run the task or leave. -/
def absMsg : ToWorker τ → Pc τ
  | .start i t => .computing i t
  | .exit => .exiting

def absPc : RPc τ → Pc τ
  | .top => .top
  | .waiting => .waiting
  | .bc1 m => absMsg m
  | .bc2 m => absMsg m
  | .computing i t => .computing i t
  | .barrier i => .reporting i
  | .reporting i => .reporting i
  | .barrierX => .exiting
  | .exiting => .exiting
  | .exited => .exited

def abs (g : Group τ β) : Worker τ β := ⟨absPc g.pc, g.out, g.inb, g.results⟩

def absSt (s : MSt τ β) : St τ β := ⟨s.next, s.closed, s.gs.map abs⟩

theorem gstep_abs (sync : Bool) (f : τ → β) (tasks : List τ) (g g' : Group τ β) (h : GStep sync f g g') :
    abs g' = abs g ∨ ∀ n c pre post, Step sync f tasks ⟨n, c, pre ++ abs g :: post⟩ ⟨n, c, pre ++ abs g' :: post⟩ := by
  cases h with
  | ready o b res sn ms h => exact Or.inr fun n c pre post => .sendReady n c pre post o b res h
  | recv o b res sn ms m h =>
    cases m with
    | start i t => exact Or.inr fun n c pre post => .recvStart n c pre post o b res i t h
    | exit => exact Or.inr fun n c pre post => .recvExit n c pre post o b res h
  | compute o b res sn ms i t => exact Or.inr fun n c pre post => .compute n c pre post o b res i t
  | done o b res sn ms i h => exact Or.inr fun n c pre post => .sendDone n c pre post o b res i h
  | exit o b res sn ms h => exact Or.inr fun n c pre post => .sendExit n c pre post o b res h
  | _ => exact Or.inl rfl

/-- Every step of the ranks is a step of the groups, or none. -/
theorem mstep_abs (sync : Bool) (f : τ → β) (tasks : List τ) (s s' : MSt τ β) (h : MStep sync f tasks s s') :
    absSt s' = absSt s ∨ Step sync f tasks (absSt s) (absSt s') := by
  cases h with
  | group n c pre post g g' h =>
    rcases gstep_abs sync f tasks g g' h with e | e
    · left; simp [absSt, e]
    · right; simpa [absSt] using e n c (pre.map abs) (post.map abs)
  | mStart n c pre post pc o b res sn ms t hc hs ht =>
    right
    have := Step.mStart (sync := sync) (f := f) (tasks := tasks) n c (pre.map abs) (post.map abs) (absPc pc) o b res t (by simpa using hc)
      (by
        intro h w hw
        have hs := hs h
        simp only [List.mem_append, List.mem_cons, List.mem_map] at hw
        rcases hw with ⟨g, hg, rfl⟩ | rfl | ⟨g, hg, rfl⟩
        · exact hs g (by simp [hg])
        · exact hs ⟨pc, .ready :: o, b, res, sn, ms⟩ (by simp)
        · exact hs g (by simp [hg])) ht
    simpa [absSt, abs] using this
  | mExit n c pre post pc o b res sn ms hc hs ht =>
    right
    have := Step.mExit (sync := sync) (f := f) (tasks := tasks) n c (pre.map abs) (post.map abs) (absPc pc) o b res (by simpa using hc)
      (by
        intro h w hw
        have hs := hs h
        simp only [List.mem_append, List.mem_cons, List.mem_map] at hw
        rcases hw with ⟨g, hg, rfl⟩ | rfl | ⟨g, hg, rfl⟩
        · exact hs g (by simp [hg])
        · exact hs ⟨pc, .ready :: o, b, res, sn, ms⟩ (by simp)
        · exact hs g (by simp [hg])) ht
    simpa [absSt, abs] using this
  | mDone n c pre post pc o b res sn ms i hc hs =>
    right
    have := Step.mDone (sync := sync) (f := f) (tasks := tasks) n c (pre.map abs) (post.map abs) (absPc pc) o b res i (by simpa using hc)
      (by
        intro h w hw
        have hs := hs h
        simp only [List.mem_append, List.mem_cons, List.mem_map] at hw
        rcases hw with ⟨g, hg, rfl⟩ | rfl | ⟨g, hg, rfl⟩
        · exact hs g (by simp [hg])
        · exact hs ⟨pc, .done i :: o, b, res, sn, ms⟩ (by simp)
        · exact hs g (by simp [hg]))
    simpa [absSt, abs] using this
  | mClosed n c pre post pc o b res sn ms hc hs =>
    right
    have := Step.mClosed (sync := sync) (f := f) (tasks := tasks) n c (pre.map abs) (post.map abs) (absPc pc) o b res (by simpa using hc)
      (by
        intro h w hw
        have hs := hs h
        simp only [List.mem_append, List.mem_cons, List.mem_map] at hw
        rcases hw with ⟨g, hg, rfl⟩ | rfl | ⟨g, hg, rfl⟩
        · exact hs g (by simp [hg])
        · exact hs ⟨pc, .exit :: o, b, res, sn, ms⟩ (by simp)
        · exact hs g (by simp [hg]))
    simpa [absSt, abs] using this

theorem absSt_init (sizes : List Nat) : absSt (minit τ β sizes) = init τ β sizes.length := by
  simp only [absSt, minit, init, List.map_map]
  congr 1
  apply List.ext_getElem <;> simp [abs, absPc]

/-- Refinement: what the ranks do is an execution of the groups. -/
theorem mrun_abs (sync : Bool) (f : τ → β) (tasks : List τ) (sizes : List Nat) (k : Nat) (s : MSt τ β)
    (h : MRun sync f tasks k (minit τ β sizes) s) : Reach sync f tasks (init τ β sizes.length) (absSt s) := by
  generalize hs : minit τ β sizes = s0 at h
  induction h with
  | nil => subst hs; rw [absSt_init]; exact .refl _
  | cons k s s' s'' h1 h2 ih =>
    rcases mstep_abs sync f tasks _ _ h2 with e | e
    · rw [e]; exact ih hs
    · exact .step _ _ _ (ih hs) e

/-- A rank of a group whose first rank has sent out the task `i`. -/
def InTask (i : Nat) (t : τ) (base : List (Nat × τ)) (m : Member τ) : Prop :=
  m = ⟨.b1, [.args (some (i, t)), .tag true], base⟩ ∨ m = ⟨.b2 (some (i, t)), [.tag true], base⟩ ∨ m = ⟨.computing i t, [], base⟩ ∨
    m = ⟨.barrier, [], base ++ [(i, t)]⟩

/-- Where the other ranks of a group can be when the first is at a given place. -/
def Follows (pc : RPc τ) (seen : List (Nat × τ)) (ms : List (Member τ)) : Prop :=
  match pc with
  | .top | .waiting | .reporting _ | .bc1 _ => ∀ m ∈ ms, m = ⟨.b1, [], seen⟩
  | .bc2 x => ∀ m ∈ ms, m = ⟨.b1, [.args (argsOf x)], seen⟩ ∨ m = ⟨.b2 (argsOf x), [], seen⟩
  | .computing i t => ∀ m ∈ ms, InTask i t seen m
  | .barrier i => ∃ base t, seen = base ++ [(i, t)] ∧ ∀ m ∈ ms, InTask i t base m
  | .barrierX => ∀ m ∈ ms, m = ⟨.b1, [.args none, .tag false], seen⟩ ∨ m = ⟨.b2 none, [.tag false], seen⟩ ∨ m = ⟨.barrierX, [], seen⟩
  | .exiting | .exited => ∀ m ∈ ms, m = ⟨.exited, [], seen⟩

/-- Invariant of a group. -/
def GInv (f : τ → β) (g : Group τ β) : Prop :=
  g.results = g.seen.map (fun p => (p.1, f p.2)) ∧ Follows g.pc g.seen g.ms

theorem follows_member (pc : RPc τ) (seen : List (Nat × τ)) (pre post : List (Member τ)) (m m' : Member τ) (h : Follows pc seen (pre ++ m :: post))
    (hm : Follows pc seen [m] → (∀ i, pc ≠ .barrier i) → Follows pc seen [m'])
    (hb : ∀ i base t, pc = .barrier i → InTask i t base m → InTask i t base m') : Follows pc seen (pre ++ m' :: post) := by
  have key : ∀ (P : Member τ → Prop), (∀ x ∈ pre ++ m :: post, P x) → (P m → P m') → ∀ x ∈ pre ++ m' :: post, P x := by
    intro P h1 h2 x hx
    simp only [List.mem_append, List.mem_cons] at hx
    rcases hx with hx | rfl | hx
    · exact h1 x (by simp [hx])
    · exact h2 (h1 m (by simp))
    · exact h1 x (by simp [hx])
  cases pc <;> simp only [Follows, List.mem_singleton, forall_eq] at h hm ⊢
  case barrier i =>
    obtain ⟨base, t, h1, h2⟩ := h
    exact ⟨base, t, h1, key _ h2 (hb i base t rfl)⟩
  all_goals exact key _ h fun h3 => hm h3 (by simp)

theorem gstep_inv (sync : Bool) (f : τ → β) (g g' : Group τ β) (hi : GInv f g) (h : GStep sync f g g') : GInv f g' := by
  obtain ⟨hr, hf⟩ := hi
  cases h with
  | ready o b res sn ms h => exact ⟨hr, hf⟩
  | recv o b res sn ms m h => exact ⟨hr, hf⟩
  | done o b res sn ms i h => exact ⟨hr, hf⟩
  | exit o b res sn ms h => exact ⟨hr, hf⟩
  | bcast1 o b res sn ms m h =>
    refine ⟨hr, ?_⟩
    intro x hx
    obtain ⟨y, hy, rfl⟩ := List.mem_map.mp hx
    rw [hf y hy]; exact Or.inl rfl
  | bcastStart o b res sn ms i t h =>
    refine ⟨hr, ?_⟩
    intro x hx
    obtain ⟨y, hy, rfl⟩ := List.mem_map.mp hx
    rcases hf y hy with e | e <;> rw [e]
    · exact Or.inl rfl
    · exact Or.inr (Or.inl rfl)
  | bcastExit o b res sn ms h =>
    refine ⟨hr, ?_⟩
    intro x hx
    obtain ⟨y, hy, rfl⟩ := List.mem_map.mp hx
    rcases hf y hy with e | e <;> rw [e]
    · exact Or.inl rfl
    · exact Or.inr (Or.inl rfl)
  | compute o b res sn ms i t =>
    refine ⟨?_, sn, t, rfl, hf⟩
    simp only at hr ⊢
    rw [hr]; simp
  | releaseDone o b res sn ms i h =>
    refine ⟨hr, ?_⟩
    obtain ⟨base, t, e, hf⟩ := hf
    simp only at e
    intro x hx
    obtain ⟨y, hy, rfl⟩ := List.mem_map.mp hx
    have hb := h y hy
    rcases hf y hy with e' | e' | e' | e' <;> rw [e'] at hb ⊢ <;> simp [atBarrier] at hb
    simp [leave, e]
  | releaseExit o b res sn ms h =>
    refine ⟨hr, ?_⟩
    intro x hx
    obtain ⟨y, hy, rfl⟩ := List.mem_map.mp hx
    have hb := h y hy
    rcases hf y hy with e' | e' | e' <;> rw [e'] at hb ⊢ <;> simp [atBarrier] at hb
    rfl
  | mArgs pc o b res sn pre post a q ms =>
    refine ⟨hr, follows_member pc sn pre post _ _ hf ?_ ?_⟩
    · clear hf hr
      intro hm hne
      cases pc <;> simp [Follows, InTask] at hm hne ⊢ <;> simp_all
    · clear hf hr
      rintro i base t - hm
      simp [InTask] at hm ⊢ <;> simp_all
  | mStart pc o b res sn pre post i t q ms =>
    refine ⟨hr, follows_member pc sn pre post _ _ hf ?_ ?_⟩
    · clear hf hr
      intro hm hne
      cases pc <;> simp [Follows, InTask] at hm hne ⊢ <;> simp_all
    · clear hf hr
      rintro i base t - hm
      simp [InTask] at hm ⊢ <;> simp_all
  | mExit pc o b res sn pre post a q ms =>
    refine ⟨hr, follows_member pc sn pre post _ _ hf ?_ ?_⟩
    · clear hf hr
      intro hm hne
      cases pc <;> simp [Follows, InTask] at hm hne ⊢ <;> simp_all
    · clear hf hr
      rintro i base t - hm
      simp [InTask] at hm ⊢ <;> simp_all
  | mCompute pc o b res sn pre post i t q ms =>
    refine ⟨hr, follows_member pc sn pre post _ _ hf ?_ ?_⟩
    · clear hf hr
      intro hm hne
      cases pc <;> simp [Follows, InTask] at hm hne ⊢ <;> simp_all
    · clear hf hr
      rintro i base t - hm
      simp [InTask] at hm ⊢ <;> simp_all

/-- Invariant of all groups; `sizes` are the numbers of the other ranks. -/
def MInv (f : τ → β) (sizes : List Nat) (s : MSt τ β) : Prop :=
  (∀ g ∈ s.gs, GInv f g) ∧ s.gs.map (fun g => g.ms.length) = sizes

theorem gstep_size (sync : Bool) (f : τ → β) (g g' : Group τ β) (h : GStep sync f g g') : g'.ms.length = g.ms.length := by
  cases h <;> simp [bcast]

theorem mstep_inv (sync : Bool) (f : τ → β) (tasks : List τ) (sizes : List Nat) (s s' : MSt τ β) (hi : MInv f sizes s)
    (h : MStep sync f tasks s s') : MInv f sizes s' := by
  have key : ∀ (n c : Nat) (n' c' : Nat) (pre post : List (Group τ β)) (g g' : Group τ β), MInv f sizes ⟨n, c, pre ++ g :: post⟩ →
      (GInv f g → GInv f g') → g'.ms.length = g.ms.length → MInv f sizes ⟨n', c', pre ++ g' :: post⟩ := by
    intro n c n' c' pre post g g' hi h1 h2
    refine ⟨?_, ?_⟩
    · intro x hx
      simp only [List.mem_append, List.mem_cons] at hx
      rcases hx with hx | rfl | hx
      · exact hi.1 x (by simp [hx])
      · exact h1 (hi.1 g (by simp))
      · exact hi.1 x (by simp [hx])
    · have := hi.2
      simp only [List.map_append, List.map_cons] at this ⊢
      rw [h2]; exact this
  cases h with
  | group n c pre post g g' h => exact key _ _ _ _ _ _ _ _ hi (fun hg => gstep_inv sync f g g' hg h) (gstep_size sync f g g' h)
  | mStart n c pre post pc o b res sn ms t hc hs ht => exact key _ _ _ _ _ _ _ _ hi (fun h => h) rfl
  | mExit n c pre post pc o b res sn ms hc hs ht => exact key _ _ _ _ _ _ _ _ hi (fun h => h) rfl
  | mDone n c pre post pc o b res sn ms i hc hs => exact key _ _ _ _ _ _ _ _ hi (fun h => h) rfl
  | mClosed n c pre post pc o b res sn ms hc hs => exact key _ _ _ _ _ _ _ _ hi (fun h => h) rfl

theorem mrun_inv (sync : Bool) (f : τ → β) (tasks : List τ) (sizes : List Nat) (k : Nat) (s : MSt τ β)
    (h : MRun sync f tasks k (minit τ β sizes) s) : MInv f sizes s := by
  generalize hs : minit τ β sizes = s0 at h
  induction h with
  | nil =>
    subst hs
    refine ⟨?_, ?_⟩
    · intro g hg
      obtain ⟨k, -, rfl⟩ := List.mem_map.mp hg
      refine ⟨rfl, ?_⟩
      intro m hm
      exact (List.mem_replicate.mp hm).2
    · simp [minit, Function.comp_def]
  | cons k s s' s'' h1 h2 ih => exact mstep_inv sync f tasks sizes _ _ (ih hs) h2

/-- The first rank of the group is not in a collective call nor in the user's code. -/
def Simple : RPc τ → Prop
  | .top | .waiting | .reporting _ | .exiting | .exited => True
  | _ => False

/-- Inside a group there is no deadlock. -/
theorem group_progress (sync : Bool) (f : τ → β) (g : Group τ β) (hi : GInv f g) (hn : ¬ Simple g.pc) : ∃ g', GStep sync f g g' := by
  obtain ⟨pc, o, b, res, sn, ms⟩ := g
  obtain ⟨-, hf⟩ := hi
  simp only at hf hn
  have split : ∀ m ∈ ms, ∃ pre post, ms = pre ++ m :: post := fun m hm => List.append_of_mem hm
  cases pc with
  | top => exact (hn trivial).elim
  | waiting => exact (hn trivial).elim
  | reporting => exact (hn trivial).elim
  | exiting => exact (hn trivial).elim
  | exited => exact (hn trivial).elim
  | bc1 m =>
    exact ⟨_, .bcast1 o b res sn ms m fun _ x hx => by rw [hf x hx]⟩
  | bc2 m =>
    by_cases hq : ∀ x ∈ ms, x.q = []
    · cases m with
      | start i t => exact ⟨_, .bcastStart o b res sn ms i t fun _ => hq⟩
      | exit => exact ⟨_, .bcastExit o b res sn ms fun _ => hq⟩
    · push Not at hq
      obtain ⟨x, hx, hxq⟩ := hq
      rcases hf x hx with e | e
      · obtain ⟨pre, post, rfl⟩ := split x hx
        rw [e]; exact ⟨_, .mArgs _ o b res sn pre post _ _ _⟩
      · rw [e] at hxq; exact absurd rfl hxq
  | computing i t => exact ⟨_, .compute o b res sn ms i t⟩
  | barrier i =>
    by_cases hb : ∀ x ∈ ms, atBarrier x = true
    · exact ⟨_, .releaseDone o b res sn ms i hb⟩
    · push Not at hb
      obtain ⟨x, hx, hxb⟩ := hb
      obtain ⟨base, t, -, hf⟩ := hf
      obtain ⟨pre, post, rfl⟩ := split x hx
      rcases hf x hx with e | e | e | e
      · rw [e]; exact ⟨_, .mArgs _ o b res sn pre post _ _ _⟩
      · rw [e]; exact ⟨_, .mStart _ o b res sn pre post _ _ _ _⟩
      · rw [e]; exact ⟨_, .mCompute _ o b res sn pre post _ _ _ _⟩
      · rw [e] at hxb; exact absurd rfl hxb
  | barrierX =>
    by_cases hb : ∀ x ∈ ms, atBarrier x = true
    · exact ⟨_, .releaseExit o b res sn ms hb⟩
    · push Not at hb
      obtain ⟨x, hx, hxb⟩ := hb
      obtain ⟨pre, post, rfl⟩ := split x hx
      rcases hf x hx with e | e | e
      · rw [e]; exact ⟨_, .mArgs _ o b res sn pre post _ _ _⟩
      · rw [e]; exact ⟨_, .mExit _ o b res sn pre post _ _ _⟩
      · rw [e] at hxb; exact absurd rfl hxb

theorem map_split (l : List (Group τ β)) (pre post : List (Worker τ β)) (w : Worker τ β) (h : l.map abs = pre ++ w :: post) :
    ∃ pre' g post', l = pre' ++ g :: post' ∧ pre'.map abs = pre ∧ abs g = w ∧ post'.map abs = post := by
  obtain ⟨p, q, rfl, h1, h2⟩ := List.map_eq_append_iff.mp h
  obtain ⟨g, q', rfl, h3, h4⟩ := List.map_eq_cons_iff.mp h2
  exact ⟨p, g, q', rfl, h1, h3, h4⟩

/-- A step of the groups is possible for the ranks when no group is in a collective call. -/
theorem lift_step (sync : Bool) (f : τ → β) (tasks : List τ) (s : MSt τ β) (hs : ∀ g ∈ s.gs, Simple g.pc) (s' : St τ β)
    (h : Step sync f tasks (absSt s) s') : ∃ s'', MStep sync f tasks s s'' := by
  obtain ⟨n, c, gs⟩ := s
  generalize ha : absSt (⟨n, c, gs⟩ : MSt τ β) = a at h
  have inb : ∀ (pre' post' : List (Group τ β)) (g : Group τ β),
      (sync = true → ∀ w ∈ pre'.map abs ++ abs g :: post'.map abs, w.inb = []) → sync = true → ∀ w ∈ pre' ++ g :: post', w.inb = [] := by
    intro pre' post' g h hsy w hw
    have := h hsy (abs w) (by
      simp only [List.mem_append, List.mem_cons, List.mem_map] at hw ⊢
      rcases hw with hw | rfl | hw
      · exact Or.inl ⟨w, hw, rfl⟩
      · exact Or.inr (Or.inl rfl)
      · exact Or.inr (Or.inr ⟨w, hw, rfl⟩))
    exact this
  cases h with
  | sendReady n' c' pre post o b res h =>
    simp only [absSt, St.mk.injEq] at ha
    obtain ⟨rfl, rfl, ha⟩ := ha
    obtain ⟨pre', g, post', rfl, h1, h2, h3⟩ := map_split gs pre post _ ha
    have hsg := hs g (by simp)
    obtain ⟨pc, o', b', res', sn, ms⟩ := g
    simp only [abs, Worker.mk.injEq] at h2
    obtain ⟨hpc, rfl, rfl, rfl⟩ := h2
    cases pc <;> simp [absPc, Simple] at hpc hsg
    exact ⟨_, .group _ _ pre' post' _ _ (.ready _ _ _ _ _ h)⟩
  | recvStart n' c' pre post o b res i t h =>
    simp only [absSt, St.mk.injEq] at ha
    obtain ⟨rfl, rfl, ha⟩ := ha
    obtain ⟨pre', g, post', rfl, h1, h2, h3⟩ := map_split gs pre post _ ha
    have hsg := hs g (by simp)
    obtain ⟨pc, o', b', res', sn, ms⟩ := g
    simp only [abs, Worker.mk.injEq] at h2
    obtain ⟨hpc, rfl, rfl, rfl⟩ := h2
    cases pc <;> simp [absPc, Simple] at hpc hsg
    exact ⟨_, .group _ _ pre' post' _ _ (.recv _ _ _ _ _ _ h)⟩
  | recvExit n' c' pre post o b res h =>
    simp only [absSt, St.mk.injEq] at ha
    obtain ⟨rfl, rfl, ha⟩ := ha
    obtain ⟨pre', g, post', rfl, h1, h2, h3⟩ := map_split gs pre post _ ha
    have hsg := hs g (by simp)
    obtain ⟨pc, o', b', res', sn, ms⟩ := g
    simp only [abs, Worker.mk.injEq] at h2
    obtain ⟨hpc, rfl, rfl, rfl⟩ := h2
    cases pc <;> simp [absPc, Simple] at hpc hsg
    exact ⟨_, .group _ _ pre' post' _ _ (.recv _ _ _ _ _ _ h)⟩
  | compute n' c' pre post o b res i t =>
    simp only [absSt, St.mk.injEq] at ha
    obtain ⟨rfl, rfl, ha⟩ := ha
    obtain ⟨pre', g, post', rfl, h1, h2, h3⟩ := map_split gs pre post _ ha
    have hsg := hs g (by simp)
    obtain ⟨pc, o', b', res', sn, ms⟩ := g
    simp only [abs, Worker.mk.injEq] at h2
    obtain ⟨hpc, rfl, rfl, rfl⟩ := h2
    cases pc <;> simp [absPc, Simple] at hpc hsg
  | sendDone n' c' pre post o b res i h =>
    simp only [absSt, St.mk.injEq] at ha
    obtain ⟨rfl, rfl, ha⟩ := ha
    obtain ⟨pre', g, post', rfl, h1, h2, h3⟩ := map_split gs pre post _ ha
    have hsg := hs g (by simp)
    obtain ⟨pc, o', b', res', sn, ms⟩ := g
    simp only [abs, Worker.mk.injEq] at h2
    obtain ⟨hpc, rfl, rfl, rfl⟩ := h2
    cases pc <;> simp [absPc, Simple] at hpc hsg
    exact ⟨_, .group _ _ pre' post' _ _ (.done _ _ _ _ _ _ h)⟩
  | sendExit n' c' pre post o b res h =>
    simp only [absSt, St.mk.injEq] at ha
    obtain ⟨rfl, rfl, ha⟩ := ha
    obtain ⟨pre', g, post', rfl, h1, h2, h3⟩ := map_split gs pre post _ ha
    have hsg := hs g (by simp)
    obtain ⟨pc, o', b', res', sn, ms⟩ := g
    simp only [abs, Worker.mk.injEq] at h2
    obtain ⟨hpc, rfl, rfl, rfl⟩ := h2
    cases pc <;> simp [absPc, Simple] at hpc hsg
    exact ⟨_, .group _ _ pre' post' _ _ (.exit _ _ _ _ _ h)⟩
  | mStart n' c' pre post pc' o b res t hc hsy ht =>
    simp only [absSt, St.mk.injEq] at ha
    obtain ⟨rfl, rfl, ha⟩ := ha
    obtain ⟨pre', g, post', rfl, rfl, h2, rfl⟩ := map_split gs pre post _ ha
    rw [← h2] at hc hsy
    obtain ⟨pc, o', b', res', sn, ms⟩ := g
    simp only [abs, Worker.mk.injEq] at h2
    obtain ⟨rfl, rfl, rfl, rfl⟩ := h2
    exact ⟨_, .mStart _ _ pre' post' _ _ _ _ _ _ t (by simpa using hc) (inb _ _ _ hsy) ht⟩
  | mExit n' c' pre post pc' o b res hc hsy ht =>
    simp only [absSt, St.mk.injEq] at ha
    obtain ⟨rfl, rfl, ha⟩ := ha
    obtain ⟨pre', g, post', rfl, rfl, h2, rfl⟩ := map_split gs pre post _ ha
    rw [← h2] at hc hsy
    obtain ⟨pc, o', b', res', sn, ms⟩ := g
    simp only [abs, Worker.mk.injEq] at h2
    obtain ⟨rfl, rfl, rfl, rfl⟩ := h2
    exact ⟨_, .mExit _ _ pre' post' _ _ _ _ _ _ (by simpa using hc) (inb _ _ _ hsy) ht⟩
  | mDone n' c' pre post pc' o b res i hc hsy =>
    simp only [absSt, St.mk.injEq] at ha
    obtain ⟨rfl, rfl, ha⟩ := ha
    obtain ⟨pre', g, post', rfl, rfl, h2, rfl⟩ := map_split gs pre post _ ha
    rw [← h2] at hc hsy
    obtain ⟨pc, o', b', res', sn, ms⟩ := g
    simp only [abs, Worker.mk.injEq] at h2
    obtain ⟨rfl, rfl, rfl, rfl⟩ := h2
    exact ⟨_, .mDone _ _ pre' post' _ _ _ _ _ _ i (by simpa using hc) (inb _ _ _ hsy)⟩
  | mClosed n' c' pre post pc' o b res hc hsy =>
    simp only [absSt, St.mk.injEq] at ha
    obtain ⟨rfl, rfl, ha⟩ := ha
    obtain ⟨pre', g, post', rfl, rfl, h2, rfl⟩ := map_split gs pre post _ ha
    rw [← h2] at hc hsy
    obtain ⟨pc, o', b', res', sn, ms⟩ := g
    simp only [abs, Worker.mk.injEq] at h2
    obtain ⟨rfl, rfl, rfl, rfl⟩ := h2
    exact ⟨_, .mClosed _ _ pre' post' _ _ _ _ _ _ (by simpa using hc) (inb _ _ _ hsy)⟩

end NBK.TaskMgr
