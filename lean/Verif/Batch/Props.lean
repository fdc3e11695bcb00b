import Verif.Batch.Lemmas
import Mathlib.Data.List.Nodup
import Mathlib.Data.List.Perm.Subperm

/-!
# C12, C13: worker groups and the task protocol
-/
set_option linter.unusedSimpArgs false
namespace NBK.Batch

/-- C12 with `include_all`: read in order the groups are exactly the ranks `1 .. n-1` (so each worker rank is
in exactly one group and rank 0 in none); no group is empty; each has at least the requested size if enough ranks exist;
the group numbers (used as `Split` colours) are distinct. Missing: one rank only (next theorem). -/
theorem splitRanks_all_partial (n N : Nat) (hn : 2 ≤ n) (hN : 1 ≤ N) :
    let g := splitRanks n N true
    (g.map (·.2)).flatten = (List.range (n - 1)).map (· + 1) ∧
    (∀ p ∈ g, p.2 ≠ []) ∧ (N ≤ n - 1 → ∀ p ∈ g, N ≤ p.2.length) ∧ (g.map (·.1)).Nodup := by
  have e1 : ((splitRanks n N true).map (·.2)) =
      arraySplit ((List.range (n - 1)).map (· + 1)) (max ((n - 1) / N) 1) := by
    apply List.ext_getElem <;> simp [splitRanks]
  have e2 : ((splitRanks n N true).map (·.1)) = List.range (max ((n - 1) / N) 1) := by
    apply List.ext_getElem <;> simp [splitRanks, arraySplit_length]
  have hmem : ∀ p ∈ splitRanks n N true, (n - 1) / (max ((n - 1) / N) 1) ≤ p.2.length := by
    intro p hp
    have : p.2 ∈ ((splitRanks n N true).map (·.2)) := List.mem_map_of_mem hp
    rw [e1] at this
    have := arraySplit_size _ _ (by omega) _ this
    simpa using this.1
  refine ⟨?_, ?_, ?_, ?_⟩
  · rw [e1]; exact arraySplit_flatten _ _ (by omega)
  · intro p hp he
    have h := hmem p hp
    rw [he] at h
    have : 0 < (n - 1) / (max ((n - 1) / N) 1) := by
      apply Nat.div_pos _ (by omega)
      have h5 : (n - 1) / N ≤ n - 1 := Nat.div_le_self (n - 1) N
      exact Nat.max_le.mpr ⟨h5, by omega⟩
    simp only [List.length_nil] at h; exact absurd this (by omega)
  · intro hle p hp
    refine Nat.le_trans ?_ (hmem p hp)
    have h1 : 1 ≤ (n - 1) / N := Nat.div_pos hle (by omega)
    rw [Nat.max_eq_left h1, Nat.le_div_iff_mul_le (by omega)]
    exact Nat.mul_div_le (n - 1) N
  · rw [e2]; exact List.nodup_range

/-- C12 fails for a single rank: with `include_all` an empty group is yielded. (`TaskManager.__init__`
refuses a communicator of size 1, so the task manager itself never meets this case.) -/
theorem splitRanks_single (N : Nat) : splitRanks 1 N true = [(0, [])] := by
  simp [splitRanks, arraySplit]

/-- C12 without `include_all`: groups are non-empty, pairwise disjoint, contain only ranks `1 .. n-1`; the first
`(n-1)/N` have exactly `N` members; any further group has fewer than `N`; group numbers are distinct; read in order the ranks increase. -/
theorem splitRanks_some (n N : Nat) (hN : 1 ≤ N) :
    let g := splitRanks n N false
    (g.map (·.2)).flatten.Nodup ∧ (∀ p ∈ g, ∀ r ∈ p.2, 1 ≤ r ∧ r < n) ∧ (∀ p ∈ g, p.2 ≠ []) ∧
    (∀ (i : Nat) (p : Nat × List Nat), g[i]? = some p → i < (n - 1) / N → p.2.length = N) ∧
    (∀ (i : Nat) (p : Nat × List Nat), g[i]? = some p → (n - 1) / N ≤ i → p.2.length < N) ∧
    (n - 1) / N ≤ g.length ∧ g.length ≤ (n - 1) / N + 1 ∧
    (g.map (·.1)).Nodup ∧ (g.map (·.2)).flatten.Sublist ((List.range (n - 1)).map (· + 1)) := by
  intro g
  generalize hA : (List.range (n - 1)).map (· + 1) = A
  have hAl : A.length = n - 1 := by rw [← hA]; simp
  have hAn : A.Nodup := by
    rw [← hA]; exact List.Nodup.map (fun a b h => by simpa using h) List.nodup_range
  have hAm : ∀ r ∈ A, 1 ≤ r ∧ r < n := by
    intro r hr; rw [← hA] at hr; simp at hr; obtain ⟨a, ha, rfl⟩ := hr; omega
  generalize hF : ((List.range ((n - 1) / N)).map fun (i : Nat) => (i, (A.drop (i * N)).take N)) = F
  have hFl : F.length = (n - 1) / N := by rw [← hF]; simp
  have hcut : ∀ i, i < (n - 1) / N → (i + 1) * N ≤ n - 1 := by
    intro i hi
    exact Nat.le_trans (Nat.mul_le_mul_right N hi) (Nat.div_mul_le_self (n - 1) N)
  have hFf : (F.map (·.2)).flatten = A.take ((n - 1) / N * N) := by
    have := cuts_flatten A (fun i => i * N) (fun i => by rw [Nat.add_mul]; omega) ((n - 1) / N)
    rw [← hF, List.map_map]
    simp only [Nat.zero_mul, List.drop_zero, Nat.sub_zero] at this
    rw [← this]
    congr 1
    apply List.map_congr_left
    intro i _
    have : (i + 1) * N - i * N = N := by rw [Nat.add_mul]; omega
    simp [this]
  have hF2 : ∀ p ∈ F, p.2.length = N := by
    intro p hp
    rw [← hF, List.mem_map] at hp
    obtain ⟨i, hi, rfl⟩ := hp
    have h1 := hcut i (by simpa using hi)
    have : (i + 1) * N = i * N + N := by rw [Nat.add_mul]; omega
    simp [hAl]; omega
  have hF1 : F.map (·.1) = List.range ((n - 1) / N) := by
    rw [← hF, List.map_map]; simp [Function.comp_def]
  -- the optional last group
  have hg : ∃ E : List (Nat × List Nat), g = F ++ E ∧
      (E = [] ∨ ∃ R, E = [((n - 1) / N + 1, R)] ∧ R ≠ [] ∧ R.Sublist (A.drop ((n - 1) / N * N)) ∧ R.length < N) := by
    have hm : (n - 1) % N < N := Nat.mod_lt _ (by omega)
    have hd : n - 1 - (n - 1) % N = (n - 1) / N * N := by
      have := Nat.div_add_mod (n - 1) N
      rw [Nat.mul_comm]; omega
    show ∃ E, splitRanks n N false = F ++ E ∧ _
    simp only [splitRanks, hA, hAl, hF, Bool.false_eq_true, if_false]
    by_cases hx : (n - 1) % N ≠ 0 ∧ (n - 1) % N ≥ N / 2
    · rw [if_pos hx, hd]
      generalize hR : (if (n - 1) % N % 2 ≠ 0 then (A.drop ((n - 1) / N * N)).dropLast
        else A.drop ((n - 1) / N * N)) = R
      have hl : (A.drop ((n - 1) / N * N)).length < N := by
        rw [List.length_drop, hAl]; omega
      have hRs : R.Sublist (A.drop ((n - 1) / N * N)) := by
        rw [← hR]; split
        · exact List.dropLast_sublist _
        · exact List.Sublist.refl _
      by_cases h2 : R.length ≠ 0
      · rw [if_pos h2]
        refine ⟨_, rfl, Or.inr ⟨R, rfl, ?_, hRs, ?_⟩⟩
        · intro h; apply h2; rw [h]; rfl
        · exact Nat.lt_of_le_of_lt hRs.length_le hl
      · rw [if_neg h2]; exact ⟨[], by simp, Or.inl rfl⟩
    · rw [if_neg hx]; exact ⟨[], by simp, Or.inl rfl⟩
  obtain ⟨E, hg, hE⟩ := hg
  have hsub : (g.map (·.2)).flatten.Sublist A := by
    rw [hg, List.map_append, List.flatten_append, hFf]
    conv_rhs => rw [← List.take_append_drop ((n - 1) / N * N) A]
    apply List.Sublist.append (List.Sublist.refl _)
    rcases hE with rfl | ⟨R, rfl, _, h, _⟩
    · simp
    · simpa using h
  refine ⟨hsub.nodup hAn, ?_, ?_, ?_, ?_, ?_, ?_, ?_, hsub⟩
  · intro p hp r hr
    apply hAm
    exact hsub.subset (List.mem_flatten.mpr ⟨p.2, List.mem_map_of_mem hp, hr⟩)
  · intro p hp he
    rw [hg, List.mem_append] at hp
    rcases hp with hp | hp
    · have := hF2 p hp; rw [he] at this; simp at this; omega
    · rcases hE with rfl | ⟨R, rfl, h, _, _⟩
      · simp at hp
      · simp at hp; subst hp; exact h he
  · intro i p hp hi
    rw [hg, List.getElem?_append_left (by omega)] at hp
    exact hF2 p (List.mem_of_getElem? hp)
  · intro i p hp hi
    rw [hg, List.getElem?_append_right (by omega)] at hp
    rcases hE with rfl | ⟨R, rfl, _, _, h⟩
    · simp at hp
    · have := List.mem_of_getElem? hp
      simp at this; subst this; exact h
  · rw [hg, List.length_append]; omega
  · rw [hg, List.length_append]
    rcases hE with rfl | ⟨R, rfl, _, _, _⟩ <;> simp <;> omega
  · rw [hg, List.map_append, hF1]
    rcases hE with rfl | ⟨R, rfl, _, _, _⟩
    · simpa using List.nodup_range
    · apply List.Nodup.append List.nodup_range (by simp)
      intro a ha hb; simp at ha hb; omega

/-- Non-vacuity: 8 ranks in groups of 3 leave rank 7 over; it is dropped, or shared out with `include_all`. -/
example : splitRanks 8 3 false = [(0, [1, 2, 3]), (1, [4, 5, 6])] ∧
    splitRanks 8 3 true = [(0, [1, 2, 3, 4]), (1, [5, 6, 7])] ∧
    splitRanks 12 4 false = [(0, [1, 2, 3, 4]), (1, [5, 6, 7, 8]), (3, [9, 10])] := by decide

variable {τ β : Type}

/-- Executions with their number of steps. -/
inductive Run (sync : Bool) (f : τ → β) (tasks : List τ) : Nat → St τ β → St τ β → Prop where
  | nil (s) : Run sync f tasks 0 s s
  | cons (k s s' s'') : Run sync f tasks k s s' → Step sync f tasks s' s'' → Run sync f tasks (k + 1) s s''

/-- C13, termination: a run has at most `6 * tasks + 5 * workers` steps, whatever the schedule. -/
theorem run_bound (sync : Bool) (f : τ → β) (tasks : List τ) (W k : Nat) (s : St τ β)
    (h : Run sync f tasks k (init τ β W) s) : k ≤ 6 * tasks.length + 5 * W := by
  have : ∀ s0, Run sync f tasks k s0 s → k + weight tasks s ≤ weight tasks s0 := by
    intro s0 h'
    clear h
    induction h' with
    | nil => omega
    | cons k s1 s' s'' _ hst ih => have := weight_step _ _ _ _ _ hst; omega
  have := this _ h
  have hw : weight tasks (init τ β W) = 6 * tasks.length + 5 * W := by
    simp [weight, init, wWeight, pcWeight]; omega
  omega

/-- C13, no deadlock: in every reachable state, either somebody can make a step, or the master has left its
loop, every worker has exited and no message is left undelivered. Both for buffered and rendezvous sends. -/
theorem no_deadlock (sync : Bool) (f : τ → β) (tasks : List τ) (W : Nat) (s : St τ β)
    (h : Reach sync f tasks (init τ β W) s) :
    (∃ s', Step sync f tasks s s') ∨
    (s.closed = s.ws.length ∧ ∀ w ∈ s.ws, w.pc = .exited ∧ w.out = [] ∧ w.inb = []) := by
  obtain ⟨le, hw, hc, acc⟩ := inv_reach sync f tasks W s h
  obtain ⟨n, c, ws⟩ := s
  by_cases hb : ∃ w ∈ ws, w.inb ≠ []
  · left
    obtain ⟨⟨pc, o, b, res⟩, hm, hne⟩ := hb
    have hi := hw _ hm
    obtain ⟨pre, post, rfl⟩ := List.append_of_mem hm
    cases pc <;> simp only [WInv] at hi hne <;> simp [hne] at hi
    obtain ⟨rfl, ⟨i, t, rfl⟩ | ⟨rfl, _⟩⟩ := hi
    · exact ⟨_, Step.recvStart _ _ _ _ _ _ _ _ _ (by simp)⟩
    · exact ⟨_, Step.recvExit _ _ _ _ _ _ _ (by simp)⟩
  · push Not at hb
    by_cases ho : ∃ w ∈ ws, w.out ≠ []
    · left
      obtain ⟨⟨pc, o, b, res⟩, hm, hne⟩ := ho
      obtain ⟨pre, post, rfl⟩ := List.append_of_mem hm
      cases o with
      | nil => simp at hne
      | cons m o =>
        have hz : isClosed (⟨pc, m :: o, b, res⟩ : Worker τ β) = 0 := by cases pc <;> simp [isClosed]
        have hlt : c < (pre ++ ⟨pc, m :: o, b, res⟩ :: post).length := by
          have := closed_lt pre post _ hz
          simp only at hc; omega
        cases m with
        | ready =>
          by_cases hn : n < tasks.length
          · exact ⟨_, Step.mStart _ _ _ _ _ _ _ _ _ hlt (fun _ => hb) (List.getElem?_eq_getElem hn)⟩
          · exact ⟨_, Step.mExit _ _ _ _ _ _ _ _ hlt (fun _ => hb) hn⟩
        | done i => exact ⟨_, Step.mDone _ _ _ _ _ _ _ _ _ hlt (fun _ => hb)⟩
        | exit => exact ⟨_, Step.mClosed _ _ _ _ _ _ _ _ hlt (fun _ => hb)⟩
    · push Not at ho
      by_cases hx : ∃ w ∈ ws, w.pc ≠ .exited
      · left
        obtain ⟨⟨pc, o, b, res⟩, hm, hne⟩ := hx
        have hi := hw _ hm
        have h1 := ho _ hm
        have h2 := hb _ hm
        simp only at h1 h2
        subst h1; subst h2
        obtain ⟨pre, post, rfl⟩ := List.append_of_mem hm
        cases pc with
        | top => exact ⟨_, Step.sendReady _ _ _ _ _ _ _ (by simp)⟩
        | waiting => simp [WInv] at hi
        | computing i t => exact ⟨_, Step.compute _ _ _ _ _ _ _ _ _⟩
        | reporting i => exact ⟨_, Step.sendDone _ _ _ _ _ _ _ _ (by simp)⟩
        | exiting => exact ⟨_, Step.sendExit _ _ _ _ _ _ _ (by simp)⟩
        | exited => simp at hne
      · push Not at hx
        right
        refine ⟨?_, fun w hm => ⟨hx w hm, ho w hm, hb w hm⟩⟩
        rw [hc]
        apply closed_all
        intro w hm
        simp only [isClosed, hx w hm, ho w hm]

/-- Specification of "task number `i` has value `b`". -/
def taskResult (f : τ → β) (tasks : List τ) (i : Nat) : Option (Nat × β) := (tasks[i]?).map fun t => (i, f t)

/-- C13, at most once at any time: in every reachable state, the results computed so far carry distinct task
numbers, and each is the function's value for that task. -/
theorem at_most_once (sync : Bool) (f : τ → β) (tasks : List τ) (W : Nat) (s : St τ β)
    (h : Reach sync f tasks (init τ β W) s) :
    ((s.ws.flatMap (·.results)).map (·.1)).Nodup ∧
    ∀ p ∈ s.ws.flatMap (·.results), taskResult f tasks p.1 = some p := by
  obtain ⟨le, hw, hc, acc⟩ := inv_reach sync f tasks W s h
  have hsub : ∀ l : List (Worker τ β), (l.flatMap (·.results)).Subperm (l.flatMap (held f)) := by
    intro l
    induction l with
    | nil => simp
    | cons w l ih =>
      simp only [List.flatMap_cons, held, List.append_assoc]
      apply List.Subperm.append (List.Subperm.refl _)
      exact ih.trans ((List.suffix_append _ _).sublist.subperm.trans ((List.suffix_append _ _).sublist.subperm))
  have hs := (hsub s.ws).trans acc.subperm
  constructor
  · have hn : ((expected f tasks s.next).map (·.1)).Nodup := by
      have : (expected f tasks s.next).map (·.1) = List.range (min s.next tasks.length) := by
        apply List.ext_getElem <;> simp [expected]
      rw [this]; exact List.nodup_range
    obtain ⟨l, hp, hsl⟩ := hs
    exact ((hp.map (·.1)).nodup_iff).mp ((hsl.map (·.1)).nodup hn)
  · intro p hp
    have := hs.subset hp
    simp only [expected, List.mem_mapIdx] at this
    obtain ⟨i, hi, rfl⟩ := this
    simp at hi
    simp [taskResult, List.getElem?_eq_getElem hi.2]

theorem reach_length (sync : Bool) (f : τ → β) (tasks : List τ) (W : Nat) (s : St τ β)
    (h : Reach sync f tasks (init τ β W) s) : s.ws.length = W := by
  generalize hs0 : init τ β W = s0 at h
  induction h with
  | refl => subst hs0; simp [init]
  | step s' s'' _ h ih =>
    have key : s''.ws.length = s'.ws.length := by cases h <;> simp
    rw [key]; exact ih

/-- C13, result: once the master has left its loop, `map` returns the list of function values in task order,
for every schedule and every number of workers. -/
theorem map_result (sync : Bool) (f : τ → β) (tasks : List τ) (W : Nat) (hW : 1 ≤ W) (s : St τ β)
    (h : Reach sync f tasks (init τ β W) s) (hend : s.closed = W) :
    mapResult s = tasks.map f := by
  have hlen := reach_length sync f tasks W s h
  obtain ⟨le, hw, hc, acc⟩ := inv_reach sync f tasks W s h
  have hall := all_closed s.ws (by omega)
  have hx : ∀ w ∈ s.ws, w.results = held f w ∧ s.next = tasks.length := by
    intro w hm
    have h1 := hall w hm
    have h2 := hw w hm
    obtain ⟨pc, o, b, res⟩ := w
    cases pc <;> simp [isClosed] at h1
    simp [WInv] at h2
    simp [held, h2.1, h2.2.2]
  have hne : ∃ w, w ∈ s.ws := by
    apply List.exists_mem_of_length_pos; omega
  obtain ⟨w0, hw0⟩ := hne
  have hn := (hx w0 hw0).2
  have hflat : s.ws.flatMap (·.results) = s.ws.flatMap (held f) := by
    rw [List.flatMap_def, List.flatMap_def]
    congr 1
    exact List.map_congr_left (fun w hm => (hx w hm).1)
  have hperm : ((s.ws.flatMap (·.results)).mergeSort (fun x y => x.1 ≤ y.1)).Perm (tasks.mapIdx fun i t => (i, f t)) := by
    refine (List.mergeSort_perm _ _).trans ?_
    rw [hflat]
    have := acc
    rw [hn] at this
    simpa [expected] using this
  have hpw : (tasks.mapIdx fun i t => (i, f t)).Pairwise (fun x y => x.1 < y.1) := by
    rw [List.pairwise_iff_getElem]
    intro i j hi hj hij
    simpa using hij
  have hsort : ((s.ws.flatMap (·.results)).mergeSort (fun x y => x.1 ≤ y.1)).Pairwise (fun x y => x.1 ≤ y.1) := by
    have := List.pairwise_mergeSort (le := fun (x y : Nat × β) => decide (x.1 ≤ y.1))
      (by intro a b c h1 h2; simp at *; omega) (by intro a b; simp; omega) (s.ws.flatMap (·.results))
    simpa using this
  have heq : ((s.ws.flatMap (·.results)).mergeSort (fun x y => x.1 ≤ y.1)) = (tasks.mapIdx fun i t => (i, f t)) := by
    refine List.Perm.eq_of_pairwise ?_ hsort (hpw.imp (fun h => Nat.le_of_lt h)) hperm
    intro a b ha hb h1 h2
    have ha' := hperm.subset ha
    simp only [List.mem_mapIdx] at ha' hb
    obtain ⟨i, hi, rfl⟩ := ha'
    obtain ⟨j, hj, rfl⟩ := hb
    simp only at h1 h2
    have : i = j := by omega
    subst this; rfl
  unfold mapResult
  rw [heq]
  apply List.ext_getElem <;> simp

/-- Non-vacuity: two workers, one task; a complete run ends with `closed = 2`. -/
example : Reach false (fun x : Nat => x * x) [7] (init Nat Nat 2)
    ⟨1, 2, [⟨.exited, [], [], [(0, 49)]⟩, ⟨.exited, [], [], []⟩]⟩ := by
  refine .step _ _ _ ?_ (.mClosed _ _ [⟨.exited, [], [], [(0, 49)]⟩] [] _ _ _ _ (by decide) (by simp))
  refine .step _ _ _ ?_ (.mClosed _ _ [] [⟨.exited, [.exit], [], []⟩] _ _ _ _ (by decide) (by simp))
  refine .step _ _ _ ?_ (.sendExit _ _ [⟨.exited, [.exit], [], [(0, 49)]⟩] [] [] _ _ (by simp))
  refine .step _ _ _ ?_ (.sendExit _ _ [] [⟨.exiting, [], [], []⟩] [] _ _ (by simp))
  refine .step _ _ _ ?_ (.recvExit _ _ [⟨.exiting, [], [], [(0, 49)]⟩] [] _ _ _ (by simp))
  refine .step _ _ _ ?_ (.recvExit _ _ [] [⟨.waiting, [], [.exit], []⟩] _ _ _ (by simp))
  refine .step _ _ _ ?_ (.mExit _ _ [] [⟨.waiting, [], [.exit], []⟩] _ _ [] _ (by decide) (by simp) (by decide))
  refine .step _ _ _ ?_ (.mExit _ _ [⟨.waiting, [.ready], [], [(0, 49)]⟩] [] _ _ [] _ (by decide) (by simp) (by decide))
  refine .step _ _ _ ?_ (.mDone _ _ [] [⟨.waiting, [.ready], [], []⟩] _ _ _ _ 0 (by decide) (by simp))
  refine .step _ _ _ ?_ (.sendReady _ _ [] [⟨.waiting, [.ready], [], []⟩] [.done 0] _ _ (by simp))
  refine .step _ _ _ ?_ (.sendDone _ _ [] [⟨.waiting, [.ready], [], []⟩] [] _ _ _ (by simp))
  refine .step _ _ _ ?_ (.compute _ _ [] [⟨.waiting, [.ready], [], []⟩] _ _ [] 0 7)
  refine .step _ _ _ ?_ (.recvStart _ _ [] [⟨.waiting, [.ready], [], []⟩] _ _ _ _ _ (by simp))
  refine .step _ _ _ ?_ (.mStart _ _ [] [⟨.waiting, [.ready], [], []⟩] _ _ [] _ 7 (by decide) (by simp) rfl)
  refine .step _ _ _ ?_ (.sendReady _ _ [⟨.waiting, [.ready], [], []⟩] [] [] _ _ (by simp))
  refine .step _ _ _ ?_ (.sendReady _ _ [] [⟨.top, [], [], []⟩] [] _ _ (by simp))
  exact .refl _

end NBK.Batch
