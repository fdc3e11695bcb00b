import Verif.TaskMgr.Lemmas

/-!
# The communicators of the `TaskManager` and the ranks of its groups (C106)
-/
set_option linter.unusedSimpArgs false
namespace NBK.TaskMgr
open NBK.Batch
variable {τ β : Type}

/-! ### communicators -/

theorem color_zero (g : List (Nat × List Nat)) (r c : Nat) (h : ∀ p ∈ g, r ∉ p.2) :
    g.foldl (fun c p => if r ∈ p.2 then p.1 + 1 else c) c = c := by
  induction g generalizing c with
  | nil => rfl
  | cons p g ih =>
    rw [List.foldl_cons, if_neg (h p (by simp))]
    exact ih _ fun q hq => h q (by simp [hq])

theorem color_in (g : List (Nat × List Nat)) (hn : (g.map (·.2)).flatten.Nodup) (r c : Nat) (p : Nat × List Nat) (hp : p ∈ g) (hr : r ∈ p.2) :
    g.foldl (fun c p => if r ∈ p.2 then p.1 + 1 else c) c = p.1 + 1 := by
  induction g generalizing c with
  | nil => cases hp
  | cons q g ih =>
    simp only [List.map_cons, List.flatten_cons, List.nodup_append] at hn
    obtain ⟨-, h2, h3⟩ := hn
    rw [List.foldl_cons]
    rcases List.mem_cons.mp hp with rfl | hp
    · rw [if_pos hr]
      apply color_zero
      intro s hs hrs
      exact h3 r hr r (List.mem_flatten.mpr ⟨s.2, List.mem_map_of_mem hs, hrs⟩) rfl
    · exact ih h2 _ hp

/-- What is needed of the groups of `split_ranks`. -/
theorem groups (size N : Nat) (all : Bool) (hs : 2 ≤ size) (hN : 1 ≤ N) :
    ((splitRanks size N all).map (·.2)).flatten.Sublist ((List.range (size - 1)).map (· + 1)) ∧ (∀ p ∈ splitRanks size N all, p.2 ≠ []) ∧
      ((splitRanks size N all).map (·.1)).Nodup := by
  cases all with
  | false =>
    obtain ⟨-, -, h1, -, -, -, -, h2, h3⟩ := splitRanks_some size N hN
    exact ⟨h3, h1, h2⟩
  | true =>
    obtain ⟨h1, h2, -, h3⟩ := splitRanks_all_partial size N hs hN
    exact ⟨by rw [h1], h2, h3⟩

theorem ranks_nodup (n : Nat) : ((List.range n).map (· + 1)).Nodup :=
  List.Nodup.map (fun a b h => by simpa using h) List.nodup_range

/-- A rank is in a group. -/
def InGroup (size N : Nat) (all : Bool) (r : Nat) : Prop := ∃ p ∈ splitRanks size N all, r ∈ p.2

theorem color_spec (size N : Nat) (all : Bool) (hs : 2 ≤ size) (hN : 1 ≤ N) (r : Nat) :
    (∀ p ∈ splitRanks size N all, r ∈ p.2 → color size N all r = p.1 + 1) ∧ (¬ InGroup size N all r → color size N all r = 0) := by
  obtain ⟨h1, -, -⟩ := groups size N all hs hN
  exact ⟨fun p hp hr => color_in _ (h1.nodup (ranks_nodup _)) r 0 p hp hr, fun h => color_zero _ r 0 fun p hp hr => h ⟨p, hp, hr⟩⟩

theorem color_eq (size N : Nat) (all : Bool) (hs : 2 ≤ size) (hN : 1 ≤ N) (r : Nat) (p : Nat × List Nat) (hp : p ∈ splitRanks size N all) :
    color size N all r = p.1 + 1 ↔ r ∈ p.2 := by
  obtain ⟨-, -, hn⟩ := groups size N all hs hN
  obtain ⟨h1, h2⟩ := color_spec size N all hs hN r
  refine ⟨fun h => ?_, h1 p hp⟩
  by_cases hg : InGroup size N all r
  · obtain ⟨q, hq, hr⟩ := hg
    rw [h1 q hq hr] at h
    have : q = p := List.inj_on_of_nodup_map hn hq hp (by simpa using h)
    rwa [← this]
  · rw [h2 hg] at h; omega

/-- A list that increases is what a filter of a range finds. -/
theorem filter_range_eq (n : Nat) (l : List Nat) (hl : l.Pairwise (· < ·)) (hb : ∀ x ∈ l, x < n) (q : Nat → Bool) (hq : ∀ x < n, q x = true ↔ x ∈ l) :
    (List.range n).filter q = l := by
  refine List.Perm.eq_of_pairwise (le := (· ≤ ·)) (fun a b _ _ h1 h2 => Nat.le_antisymm h1 h2)
    ((List.pairwise_lt_range.filter _).imp Nat.le_of_lt) (hl.imp Nat.le_of_lt) ?_
  rw [List.perm_ext_iff_of_nodup (List.nodup_range.filter _) (hl.imp Nat.ne_of_lt)]
  intro x
  rw [List.mem_filter, List.mem_range]
  constructor
  · rintro ⟨h1, h2⟩; exact (hq x h1).mp h2
  · intro h; exact ⟨hb x h, (hq x (hb x h)).mpr h⟩

theorem group_sorted (size N : Nat) (all : Bool) (hs : 2 ≤ size) (hN : 1 ≤ N) (p : Nat × List Nat) (hp : p ∈ splitRanks size N all) :
    p.2.Pairwise (· < ·) ∧ ∀ x ∈ p.2, 0 < x ∧ x < size := by
  obtain ⟨h1, -, -⟩ := groups size N all hs hN
  have h2 := (List.sublist_flatten_of_mem (List.mem_map_of_mem (f := fun q : Nat × List Nat => q.2) hp)).trans h1
  refine ⟨List.Pairwise.sublist h2 ?_, fun x hx => ?_⟩
  · rw [List.pairwise_map]
    exact List.pairwise_lt_range.imp fun h => by omega
  · have := h2.subset hx
    simp at this
    omega

theorem groups_length (size N : Nat) (all : Bool) (hs : 2 ≤ size) (hN : 1 ≤ N) :
    (splitRanks size N all).length ≤ ((splitRanks size N all).map fun p => p.2.length).sum ∧
    ((splitRanks size N all).map fun p => p.2.length).sum ≤ size - 1 := by
  obtain ⟨h1, h2, -⟩ := groups size N all hs hN
  constructor
  · generalize splitRanks size N all = g at h2
    clear h1
    induction g with
    | nil => simp
    | cons p g ih =>
      have := List.length_pos_iff.mpr (h2 p (by simp))
      have := ih fun q hq => h2 q (by simp [hq])
      simp only [List.length_cons, List.map_cons, List.sum_cons]; omega
  · have := h1.length_le
    simpa [List.length_flatten, Function.comp_def] using this

/-- **C106**: on every rank the context has the same number of workers, that of the groups; the ranks of a group have the communicator of
that group, in order, and are workers; all others, with the root, share one communicator and are none; the number in the warning is
that of the idle ranks. -/
theorem enter_spec (size N : Nat) (all : Bool) (rank : Nat) (hs : 1 ≤ size) (ctx : Ctx) (h : enter size N all rank = .ok ctx) :
    ctx.workers = (splitRanks size N all).length ∧ (ctx.valid = true ↔ InGroup size N all rank) ∧
    (∀ p ∈ splitRanks size N all, rank ∈ p.2 → ctx.comm = p.2) ∧
    (¬ InGroup size N all rank → ctx.comm.Pairwise (· < ·) ∧ ∀ r, r ∈ ctx.comm ↔ r < size ∧ ¬ InGroup size N all r) ∧
    ¬ InGroup size N all 0 ∧
    ∃ idle : List Nat, idle.Nodup ∧ (∀ r, r ∈ idle ↔ 0 < r ∧ r < size ∧ ¬ InGroup size N all r) ∧ ctx.leftover = idle.length := by
  unfold enter at h
  by_cases h1 : size = 1
  · rw [if_pos h1] at h; cases h
  rw [if_neg h1] at h
  by_cases h2 : N = 0
  · rw [if_pos h2] at h; cases h
  rw [if_neg h2] at h
  dsimp only at h
  have hs2 : 2 ≤ size := by omega
  have hN : 1 ≤ N := by omega
  by_cases h3 : (splitRanks size N all).length = 0
  · rw [if_pos h3] at h; cases h
  rw [if_neg h3] at h
  by_cases h4 : size ≤ (splitRanks size N all).length
  · rw [if_pos h4] at h; cases h
  rw [if_neg h4] at h
  obtain rfl := Except.ok.inj h
  have hroot : ¬ InGroup size N all 0 := by
    rintro ⟨p, hp, h0⟩
    have := (group_sorted size N all hs2 hN p hp).2 0 h0
    omega
  obtain ⟨c1, c2⟩ := color_spec size N all hs2 hN rank
  refine ⟨rfl, ?_, ?_, ?_, hroot, ?_⟩
  · simp only [decide_eq_true_eq]
    constructor
    · intro hc
      by_contra hn
      rw [c2 hn] at hc; omega
    · rintro ⟨p, hp, hr⟩; rw [c1 p hp hr]; omega
  · intro p hp hr
    obtain ⟨g1, g2⟩ := group_sorted size N all hs2 hN p hp
    refine filter_range_eq size p.2 g1 (fun x hx => (g2 x hx).2) _ fun x _ => ?_
    rw [decide_eq_true_eq, c1 p hp hr]
    exact color_eq size N all hs2 hN x p hp
  · intro hn
    refine ⟨List.pairwise_lt_range.filter _, fun r => ?_⟩
    simp only [List.mem_filter, List.mem_range, decide_eq_true_eq, c2 hn]
    refine and_congr_right fun _ => ?_
    constructor
    · rintro hc ⟨p, hp, hr⟩
      rw [(color_spec size N all hs2 hN r).1 p hp hr] at hc; omega
    · exact (color_spec size N all hs2 hN r).2
  · obtain ⟨g1, -, -⟩ := groups size N all hs2 hN
    refine ⟨((List.range (size - 1)).map (· + 1)).filter fun r => decide (r ∉ ((splitRanks size N all).map (·.2)).flatten),
      (ranks_nodup _).filter _, ?_, ?_⟩
    · intro r
      simp only [List.mem_filter, List.mem_map, List.mem_range, decide_eq_true_eq, List.mem_flatten, InGroup]
      constructor
      · rintro ⟨⟨a, ha, rfl⟩, hn⟩
        refine ⟨by omega, by omega, ?_⟩
        rintro ⟨p, hp, hr⟩; exact hn ⟨p.2, ⟨p, hp, rfl⟩, hr⟩
      · rintro ⟨ha, hb, hn⟩
        refine ⟨⟨r - 1, by omega, by omega⟩, ?_⟩
        rintro ⟨l, ⟨p, hp, rfl⟩, hr⟩; exact hn ⟨p, hp, hr⟩
    · have hperm : (((splitRanks size N all).map (·.2)).flatten ++ ((List.range (size - 1)).map (· + 1)).filter fun r =>
          decide (r ∉ ((splitRanks size N all).map (·.2)).flatten)).Perm ((List.range (size - 1)).map (· + 1)) := by
        rw [List.perm_ext_iff_of_nodup]
        · intro r
          rw [List.mem_append, List.mem_filter, decide_eq_true_eq]
          constructor
          · rintro (h | h)
            · exact g1.subset h
            · exact h.1
          · intro hr
            by_cases hm : r ∈ ((splitRanks size N all).map (·.2)).flatten
            · exact Or.inl hm
            · exact Or.inr ⟨hr, hm⟩
        · rw [List.nodup_append]
          refine ⟨g1.nodup (ranks_nodup _), (ranks_nodup _).filter _, ?_⟩
          rintro a ha b hb rfl
          rw [List.mem_filter, decide_eq_true_eq] at hb
          exact hb.2 ha
        · exact ranks_nodup _
      have hl := hperm.length_eq
      simp only [List.length_append, List.length_flatten, List.map_map, List.length_map, List.length_range, Function.comp_def] at hl ⊢
      omega

/-- As many ranks talk to the master as there are workers: the first of each group. -/
theorem enter_leaders (size N : Nat) (all : Bool) (hs : 2 ≤ size) (hN : 1 ≤ N) (C : Nat → Ctx) (h : ∀ r < size, enter size N all r = .ok (C r))
    (r0 : Nat) (hr0 : r0 < size) :
    ((List.range size).filter fun r => (C r).valid && decide ((C r).comm.head? = some r)).length = (C r0).workers := by
  obtain ⟨h1, h2, h3⟩ := groups size N all hs hN
  rw [(enter_spec size N all r0 (by omega) _ (h r0 hr0)).1]
  have hg : ∀ p ∈ splitRanks size N all, p.2 = p.2.headD 0 :: p.2.tail := by
    intro p hp
    have := h2 p hp
    cases hh : p.2 with
    | nil => exact absurd hh this
    | cons a l => rfl
  have hperm : ((List.range size).filter fun r => (C r).valid && decide ((C r).comm.head? = some r)).Perm
      ((splitRanks size N all).map fun p => p.2.headD 0) := by
    rw [List.perm_ext_iff_of_nodup (List.nodup_range.filter _)]
    · intro r
      rw [List.mem_filter, List.mem_range, List.mem_map, Bool.and_eq_true, decide_eq_true_eq]
      constructor
      · rintro ⟨hr, hv, hh⟩
        have sp := enter_spec size N all r (by omega) _ (h r hr)
        obtain ⟨p, hp, hrp⟩ := sp.2.1.mp hv
        rw [sp.2.2.1 p hp hrp, hg p hp] at hh
        exact ⟨p, hp, by simpa using hh⟩
      · rintro ⟨p, hp, rfl⟩
        have hm : p.2.headD 0 ∈ p.2 := by rw [hg p hp]; simp
        have hr := ((group_sorted size N all hs hN p hp).2 _ hm).2
        have sp := enter_spec size N all _ (by omega) _ (h _ hr)
        refine ⟨hr, sp.2.1.mpr ⟨p, hp, hm⟩, ?_⟩
        rw [sp.2.2.1 p hp hm, hg p hp]; simp
    · have hnd := h1.nodup (ranks_nodup _)
      clear h h1 h3
      generalize splitRanks size N all = g at *
      induction g with
      | nil => simp
      | cons p g ih =>
        rw [List.map_cons, List.nodup_cons]
        simp only [List.map_cons, List.flatten_cons, List.nodup_append] at hnd
        refine ⟨?_, ih (fun q hq => h2 q (by simp [hq])) (fun q hq => hg q (by simp [hq])) hnd.2.1⟩
        intro hm
        obtain ⟨q, hq, e⟩ := List.mem_map.mp hm
        refine hnd.2.2 (p.2.headD 0) (by rw [hg p (by simp)]; simp) (q.2.headD 0) ?_ e.symm
        exact List.mem_flatten.mpr ⟨q.2, List.mem_map_of_mem hq, by rw [hg q (by simp [hq])]; simp⟩
  rw [hperm.length_eq, List.length_map]

/-- When the context can be entered; the last check of `__enter__` never fails. -/
theorem enter_ok_iff (size N : Nat) (all : Bool) (rank : Nat) (hs : 1 ≤ size) :
    (∃ ctx, enter size N all rank = .ok ctx) ↔
      2 ≤ size ∧ 1 ≤ N ∧ (all = true ∨ N ≤ size - 1 ∨ (2 ≤ size - 1 ∧ N / 2 ≤ size - 1)) := by
  unfold enter
  by_cases h1 : size = 1
  · rw [if_pos h1]
    constructor
    · rintro ⟨_, h⟩; cases h
    · rintro ⟨h, -⟩; omega
  rw [if_neg h1]
  by_cases h2 : N = 0
  · rw [if_pos h2]
    constructor
    · rintro ⟨_, h⟩; cases h
    · rintro ⟨-, h, -⟩; omega
  rw [if_neg h2]
  dsimp only
  have hs2 : 2 ≤ size := by omega
  have hN : 1 ≤ N := by omega
  obtain ⟨l1, l2⟩ := groups_length size N all hs2 hN
  have key : (splitRanks size N all).length ≠ 0 ↔ (all = true ∨ N ≤ size - 1 ∨ (2 ≤ size - 1 ∧ N / 2 ≤ size - 1)) := by
    cases all with
    | true =>
      simp only [true_or, iff_true]
      simp only [splitRanks, if_true, List.length_mapIdx, arraySplit_length]
      omega
    | false =>
      simp only [Bool.false_eq_true, false_or]
      by_cases hle : N ≤ size - 1
      · have : 1 ≤ (size - 1) / N := Nat.div_pos hle (by omega)
        obtain ⟨-, -, -, -, -, h6, -⟩ := splitRanks_some size N hN
        simp only [hle, true_or, iff_true]
        omega
      · have hd : (size - 1) / N = 0 := Nat.div_eq_of_lt (by omega)
        have hm : (size - 1) % N = size - 1 := Nat.mod_eq_of_lt (by omega)
        simp only [splitRanks, Bool.false_eq_true, if_false, List.length_map, List.length_range, hd, hm]
        simp only [List.range_zero, List.map_nil, Nat.sub_self, List.drop_zero, hle, false_or]
        split
        · split
          · split
            · rename_i a b c
              simp at c
              simp
              omega
            · rename_i a b c
              simp at c
              simp
              omega
          · split
            · rename_i a b c
              simp
              omega
            · rename_i a b c
              simp at c
              omega
        · rename_i a
          simp
          omega
  by_cases h3 : (splitRanks size N all).length = 0
  · rw [if_pos h3]
    constructor
    · rintro ⟨_, h⟩; cases h
    · rintro ⟨-, -, h⟩; exact absurd h3 (key.mpr h)
  · rw [if_neg h3, if_neg (by omega)]
    exact ⟨fun _ => ⟨hs2, hN, key.mp h3⟩, fun _ => ⟨_, rfl⟩⟩

/-- 12 ranks in groups of 4: groups of 4, 4 and 2, rank 11 idles with the root. -/
theorem enter_case : enter 12 4 false 6 = .ok ⟨3, 1, true, [5, 6, 7, 8]⟩ ∧ enter 12 4 false 10 = .ok ⟨3, 1, true, [9, 10]⟩ ∧
    enter 12 4 false 0 = .ok ⟨3, 1, false, [0, 11]⟩ ∧ enter 2 2 false 0 = .error .valueError := by decide +kernel

/-! ### the ranks of a group -/

/-- All ranks of a group run the same tasks in the same order: at any time they differ by the last one at most. -/
theorem lockstep (sync : Bool) (f : τ → β) (tasks : List τ) (sizes : List Nat) (k : Nat) (s : MSt τ β)
    (h : MRun sync f tasks k (minit τ β sizes) s) : ∀ g ∈ s.gs, ∀ m ∈ g.ms,
      m.seen = g.seen ∨ (∃ x, g.seen = m.seen ++ [x]) ∨ ∃ x, m.seen = g.seen ++ [x] := by
  intro g hg m hm
  obtain ⟨-, hf⟩ := (mrun_inv sync f tasks sizes k s h).1 g hg
  obtain ⟨pc, o, b, res, sn, ms⟩ := g
  simp only at hf hm ⊢
  cases pc with
  | top => exact Or.inl (by rw [hf m hm])
  | waiting => exact Or.inl (by rw [hf m hm])
  | bc1 x => exact Or.inl (by rw [hf m hm])
  | bc2 x => rcases hf m hm with e | e <;> exact Or.inl (by rw [e])
  | computing i t =>
    rcases hf m hm with e | e | e | e
    · exact Or.inl (by rw [e])
    · exact Or.inl (by rw [e])
    · exact Or.inl (by rw [e])
    · exact Or.inr (Or.inr ⟨(i, t), by rw [e]⟩)
  | barrier i =>
    obtain ⟨base, t, rfl, hf⟩ := hf
    rcases hf m hm with e | e | e | e
    · exact Or.inr (Or.inl ⟨(i, t), by rw [e]⟩)
    · exact Or.inr (Or.inl ⟨(i, t), by rw [e]⟩)
    · exact Or.inr (Or.inl ⟨(i, t), by rw [e]⟩)
    · exact Or.inl (by rw [e])
  | reporting i => exact Or.inl (by rw [hf m hm])
  | barrierX => rcases hf m hm with e | e | e <;> exact Or.inl (by rw [e])
  | exiting => exact Or.inl (by rw [hf m hm])
  | exited => exact Or.inl (by rw [hf m hm])

/-- The group with the tasks in the place of the results. -/
def reid (g : Group τ β) : Group τ τ := ⟨g.pc, g.out, g.inb, g.seen, g.seen, g.ms⟩

def reidSt (s : MSt τ β) : MSt τ τ := ⟨s.next, s.closed, s.gs.map reid⟩

/-- What the ranks do does not depend on the function. -/
theorem mrun_reid (sync : Bool) (f : τ → β) (tasks : List τ) (sizes : List Nat) (k : Nat) (s : MSt τ β)
    (h : MRun sync f tasks k (minit τ β sizes) s) : MRun sync id tasks k (minit τ τ sizes) (reidSt s) := by
  generalize hs : minit τ β sizes = s0 at h
  have inb : ∀ (pre post : List (Group τ β)) (g : Group τ β), (sync = true → ∀ w ∈ pre ++ g :: post, w.inb = []) →
      sync = true → ∀ w ∈ pre.map reid ++ reid g :: post.map reid, w.inb = [] := by
    intro pre post g h hsy w hw
    have h := h hsy
    simp only [List.mem_append, List.mem_cons, List.mem_map] at hw
    rcases hw with ⟨x, hx, rfl⟩ | rfl | ⟨x, hx, rfl⟩
    · exact h x (by simp [hx])
    · exact h g (by simp)
    · exact h x (by simp [hx])
  induction h with
  | nil =>
    subst hs
    have : reidSt (minit τ β sizes) = minit τ τ sizes := by
      simp [reidSt, minit, reid, Function.comp_def]
    rw [this]; exact .nil _
  | cons k s s' s'' h1 h2 ih =>
    refine .cons _ _ _ _ (ih hs) ?_
    cases h2 with
    | group n c pre post g g' h =>
      simp only [reidSt, List.map_append, List.map_cons]
      refine .group _ _ _ _ _ _ ?_
      cases h with
      | ready o b res sn ms h => exact .ready _ _ _ _ _ h
      | recv o b res sn ms m h => exact .recv _ _ _ _ _ _ h
      | bcast1 o b res sn ms m h => exact .bcast1 _ _ _ _ _ _ h
      | bcastStart o b res sn ms i t h => exact .bcastStart _ _ _ _ _ _ _ h
      | bcastExit o b res sn ms h => exact .bcastExit _ _ _ _ _ h
      | compute o b res sn ms i t => exact .compute _ _ _ _ _ _ _
      | releaseDone o b res sn ms i h => exact .releaseDone _ _ _ _ _ _ h
      | releaseExit o b res sn ms h => exact .releaseExit _ _ _ _ _ h
      | done o b res sn ms i h => exact .done _ _ _ _ _ _ h
      | exit o b res sn ms h => exact .exit _ _ _ _ _ h
      | mArgs pc o b res sn pre post a q ms => exact .mArgs _ _ _ _ _ _ _ _ _ _
      | mStart pc o b res sn pre post i t q ms => exact .mStart _ _ _ _ _ _ _ _ _ _ _
      | mExit pc o b res sn pre post a q ms => exact .mExit _ _ _ _ _ _ _ _ _ _
      | mCompute pc o b res sn pre post i t q ms => exact .mCompute _ _ _ _ _ _ _ _ _ _ _
    | mStart n c pre post pc o b res sn ms t hc hsy ht =>
      simp only [reidSt, List.map_append, List.map_cons]
      exact .mStart n c (pre.map reid) (post.map reid) pc o b sn sn ms t (by simpa using hc) (inb _ _ _ hsy) ht
    | mExit n c pre post pc o b res sn ms hc hsy ht =>
      simp only [reidSt, List.map_append, List.map_cons]
      exact .mExit n c (pre.map reid) (post.map reid) pc o b sn sn ms (by simpa using hc) (inb _ _ _ hsy) ht
    | mDone n c pre post pc o b res sn ms i hc hsy =>
      simp only [reidSt, List.map_append, List.map_cons]
      exact .mDone n c (pre.map reid) (post.map reid) pc o b sn sn ms i (by simpa using hc) (inb _ _ _ hsy)
    | mClosed n c pre post pc o b res sn ms hc hsy =>
      simp only [reidSt, List.map_append, List.map_cons]
      exact .mClosed n c (pre.map reid) (post.map reid) pc o b sn sn ms (by simpa using hc) (inb _ _ _ hsy)

/-- **C106**: when the master has left its loop, every rank of every group has left its loop; all ranks of a group ran the same tasks; every
task was run by exactly one group; and `map` returns the values in the order of the tasks. The tasks run are what `iterate` yields. -/
theorem ranks_finish (sync : Bool) (f : τ → β) (tasks : List τ) (sizes : List Nat) (hW : sizes ≠ []) (k : Nat) (s : MSt τ β)
    (h : MRun sync f tasks k (minit τ β sizes) s) (hend : s.closed = sizes.length) :
    (∀ g ∈ s.gs, g.pc = .exited ∧ g.out = [] ∧ g.inb = [] ∧ ∀ m ∈ g.ms, m.pc = .exited ∧ m.q = [] ∧ m.seen = g.seen) ∧
    ((s.gs.flatMap (·.seen)).Perm (tasks.mapIdx fun i t => (i, t))) ∧ mMapResult s = tasks.map f := by
  have hr := mrun_abs sync f tasks sizes k s h
  have hmi := mrun_inv sync f tasks sizes k s h
  have hlen := reach_length sync f tasks sizes.length _ hr
  have hinv := inv_reach sync f tasks sizes.length _ hr
  have hall := all_closed (absSt s).ws (by rw [← hinv.closed, hlen]; exact hend)
  have hex : ∀ g ∈ s.gs, g.pc = .exited ∧ g.out = [] ∧ g.inb = [] := by
    intro g hg
    have h1 := hall (abs g) (List.mem_map_of_mem hg)
    have h2 := hinv.w (abs g) (List.mem_map_of_mem hg)
    obtain ⟨pc, o, b, res, sn, ms⟩ := g
    cases pc <;> simp [isClosed, abs, absPc, absMsg] at h1
    case bc1 m => cases m <;> simp at h1
    case bc2 m => cases m <;> simp at h1
    case exited =>
      cases o with
      | nil => simp [WInv, abs, absPc] at h2; exact ⟨rfl, rfl, h2.1⟩
      | cons a o => simp at h1
  have hms : ∀ g ∈ s.gs, ∀ m ∈ g.ms, m = ⟨.exited, [], g.seen⟩ := by
    intro g hg m hm
    have h1 := (hmi.1 g hg).2
    rw [(hex g hg).1] at h1
    exact h1 m hm
  have hmap := map_result sync f tasks sizes.length (by
    cases sizes with
    | nil => exact absurd rfl hW
    | cons a l => simp) _ hr hend
  refine ⟨fun g hg => ⟨(hex g hg).1, (hex g hg).2.1, (hex g hg).2.2, fun m hm => by rw [hms g hg m hm]; exact ⟨rfl, rfl, rfl⟩⟩, ?_, ?_⟩
  · -- the tasks, from the run with the identity
    have hn : s.next = tasks.length := by
      obtain ⟨g, hg⟩ : ∃ g, g ∈ s.gs := by
        apply List.exists_mem_of_length_pos
        have : s.gs.length = sizes.length := by rw [← hmi.2]; simp
        cases sizes with
        | nil => exact absurd rfl hW
        | cons a l => rw [this]; simp
      have h2 := hinv.w (abs g) (List.mem_map_of_mem hg)
      have h3 := hex g hg
      simp [WInv, abs, absPc, h3.1] at h2
      exact h2.2.2
    have hr' := mrun_abs sync id tasks sizes k _ (mrun_reid sync f tasks sizes k s h)
    have acc := (inv_reach sync id tasks sizes.length _ hr').acc
    have e1 : (absSt (reidSt s)).ws.flatMap (held id) = s.gs.flatMap (·.seen) := by
      simp only [absSt, reidSt, List.map_map]
      rw [List.flatMap_map, List.flatMap_def, List.flatMap_def]
      congr 1
      refine List.map_congr_left fun g hg => ?_
      have h3 := hex g hg
      simp [held, abs, reid, absPc, h3.1, h3.2.2]
    rw [e1] at acc
    refine acc.trans ?_
    show (expected id tasks s.next).Perm _
    rw [hn]
    simp [expected]
  · have : mMapResult s = mapResult (absSt s) := by
      simp only [mMapResult, mapResult, absSt]
      congr 2
      rw [List.flatMap_map]; rfl
    rw [this]; exact hmap

/-- **C106**, no deadlock of the ranks: either somebody can make a step, or the master and every rank of every group have left their loops. -/
theorem ranks_no_deadlock (sync : Bool) (f : τ → β) (tasks : List τ) (sizes : List Nat) (k : Nat) (s : MSt τ β)
    (h : MRun sync f tasks k (minit τ β sizes) s) :
    (∃ s', MStep sync f tasks s s') ∨
    (s.closed = sizes.length ∧ ∀ g ∈ s.gs, g.pc = .exited ∧ ∀ m ∈ g.ms, m.pc = .exited) := by
  have hmi := mrun_inv sync f tasks sizes k s h
  have hr := mrun_abs sync f tasks sizes k s h
  by_cases hs : ∀ g ∈ s.gs, Simple g.pc
  · rcases no_deadlock sync f tasks sizes.length _ hr with ⟨s', h1⟩ | ⟨h1, h2⟩
    · exact Or.inl (lift_step sync f tasks s hs s' h1)
    · right
      have hlen := reach_length sync f tasks sizes.length _ hr
      refine ⟨by rw [← hlen]; exact h1, fun g hg => ?_⟩
      have h3 := (h2 (abs g) (List.mem_map_of_mem hg)).1
      have h4 := hs g hg
      have h5 := (hmi.1 g hg).2
      obtain ⟨pc, o, b, res, sn, ms⟩ := g
      cases pc <;> simp [abs, absPc, Simple] at h3 h4
      exact ⟨rfl, fun m hm => by rw [h5 m hm]⟩
  · left
    push Not at hs
    obtain ⟨g, hg, hn⟩ := hs
    obtain ⟨g', h1⟩ := group_progress sync f g (hmi.1 g hg) hn
    obtain ⟨n, c, gs⟩ := s
    obtain ⟨pre, post, rfl⟩ := List.append_of_mem hg
    exact ⟨_, .group n c pre post g g' h1⟩

/-- What a rank has left to do until the barrier. -/
def left (m : Member τ) : Nat :=
  match m.pc with
  | .b1 => 3 | .b2 _ => 2 | .computing _ _ => 1 | _ => 0

/-- What a group has left to do in its collective calls. -/
def phi (g : Group τ β) : Nat :=
  match g.pc with
  | .bc1 _ => 3 + (g.ms.map left).sum
  | .bc2 _ => 2 + (g.ms.map left).sum
  | .computing _ _ | .barrier _ | .barrierX => 1 + (g.ms.map left).sum
  | _ => 0

theorem left_sum (ms : List (Member τ)) : (ms.map left).sum ≤ 3 * ms.length := by
  induction ms with
  | nil => simp
  | cons m ms ih =>
    have : left m ≤ 3 := by unfold left; split <;> omega
    simp only [List.map_cons, List.sum_cons, List.length_cons]; omega

theorem phi_le (g : Group τ β) : phi g ≤ 3 * (g.ms.length + 1) := by
  have := left_sum g.ms
  unfold phi
  split <;> omega

theorem left_bcast (v : BMsg τ) (ms : List (Member τ)) : ((bcast v ms).map left).sum = (ms.map left).sum := by
  unfold bcast
  rw [List.map_map]; rfl

theorem gstep_phi (sync : Bool) (f : τ → β) (tasks : List τ) (g g' : Group τ β) (hi : GInv f g) (h : GStep sync f g g') :
    (abs g' = abs g ∧ phi g' < phi g) ∨ ∀ n c pre post, Step sync f tasks ⟨n, c, pre ++ abs g :: post⟩ ⟨n, c, pre ++ abs g' :: post⟩ := by
  obtain ⟨-, hf⟩ := hi
  cases h with
  | ready o b res sn ms h => exact Or.inr fun n c pre post => .sendReady n c pre post o b res h
  | recv o b res sn ms m h =>
    cases m with
    | start i t => exact Or.inr fun n c pre post => .recvStart n c pre post o b res i t h
    | exit => exact Or.inr fun n c pre post => .recvExit n c pre post o b res h
  | compute o b res sn ms i t => exact Or.inr fun n c pre post => .compute n c pre post o b res i t
  | done o b res sn ms i h => exact Or.inr fun n c pre post => .sendDone n c pre post o b res i h
  | exit o b res sn ms h => exact Or.inr fun n c pre post => .sendExit n c pre post o b res h
  | bcast1 o b res sn ms m h => exact Or.inl ⟨rfl, by simp [phi, left_bcast]⟩
  | bcastStart o b res sn ms i t h => exact Or.inl ⟨rfl, by simp [phi, left_bcast]⟩
  | bcastExit o b res sn ms h => exact Or.inl ⟨rfl, by simp [phi, left_bcast]⟩
  | releaseDone o b res sn ms i h => exact Or.inl ⟨rfl, by simp [phi]; omega⟩
  | releaseExit o b res sn ms h => exact Or.inl ⟨rfl, by simp [phi]; omega⟩
  | mArgs pc o b res sn pre post a q ms =>
    refine Or.inl ⟨rfl, ?_⟩
    have hx : (⟨.b1, .args a :: q, ms⟩ : Member τ) ∈ pre ++ ⟨.b1, .args a :: q, ms⟩ :: post := by simp
    cases pc <;> simp [phi, left] <;> first | omega | (have := hf _ hx; simp at this)
  | mStart pc o b res sn pre post i t q ms =>
    refine Or.inl ⟨rfl, ?_⟩
    have hx : (⟨.b2 (some (i, t)), .tag true :: q, ms⟩ : Member τ) ∈ pre ++ ⟨.b2 (some (i, t)), .tag true :: q, ms⟩ :: post := by simp
    cases pc <;> simp [phi, left] <;> first | omega | (have := hf _ hx; simp at this)
  | mExit pc o b res sn pre post a q ms =>
    refine Or.inl ⟨rfl, ?_⟩
    have hx : (⟨.b2 a, .tag false :: q, ms⟩ : Member τ) ∈ pre ++ ⟨.b2 a, .tag false :: q, ms⟩ :: post := by simp
    cases pc <;> simp [phi, left] <;> first | omega | (have := hf _ hx; simp at this)
  | mCompute pc o b res sn pre post i t q ms =>
    refine Or.inl ⟨rfl, ?_⟩
    have hx : (⟨.computing i t, q, ms⟩ : Member τ) ∈ pre ++ ⟨.computing i t, q, ms⟩ :: post := by simp
    cases pc <;> simp [phi, left] <;> first | omega | (have := hf _ hx; simp at this)

/-- **C106**, termination: with `R` ranks in `W` groups there are at most `(3 R + 1) (6 tasks + 5 W)` steps, whatever the schedule. -/
theorem ranks_bound (sync : Bool) (f : τ → β) (tasks : List τ) (sizes : List Nat) (k : Nat) (s : MSt τ β)
    (h : MRun sync f tasks k (minit τ β sizes) s) :
    k ≤ (3 * (sizes.map (· + 1)).sum + 1) * (6 * tasks.length + 5 * sizes.length) := by
  obtain ⟨K, hK⟩ : ∃ K, K = 3 * (sizes.map (· + 1)).sum := ⟨_, rfl⟩
  rw [← hK]
  have hphi : ∀ s : MSt τ β, MInv f sizes s → (s.gs.map phi).sum ≤ K := by
    intro s hi
    rw [hK, ← hi.2]
    generalize s.gs = gs
    induction gs with
    | nil => simp
    | cons g gs ih =>
      have := phi_le g
      simp only [List.map_cons, List.sum_cons] at ih ⊢; omega
  have hstep : ∀ s s' : MSt τ β, MInv f sizes s → MStep sync f tasks s s' →
      (K + 1) * weight tasks (absSt s') + (s'.gs.map phi).sum < (K + 1) * weight tasks (absSt s) + (s.gs.map phi).sum := by
    intro s s' hi hst
    have hi' := mstep_inv sync f tasks sizes s s' hi hst
    have key : Step sync f tasks (absSt s) (absSt s') → 
        (K + 1) * weight tasks (absSt s') + (s'.gs.map phi).sum < (K + 1) * weight tasks (absSt s) + (s.gs.map phi).sum := by
      intro hs
      have h1 := weight_step _ _ _ _ _ hs
      have h2 := hphi s' hi'
      have h3 : (K + 1) * (weight tasks (absSt s') + 1) ≤ (K + 1) * weight tasks (absSt s) := Nat.mul_le_mul_left _ h1
      rw [Nat.mul_add] at h3
      omega
    rcases mstep_abs sync f tasks s s' hst with e | e
    · cases hst with
      | group n c pre post g g' hg =>
        rcases gstep_phi sync f tasks g g' (hi.1 g (by simp)) hg with ⟨-, h2⟩ | h2
        · rw [e]
          simp only [List.map_append, List.map_cons, List.sum_append, List.sum_cons]
          omega
        · exact key (by simpa [absSt] using h2 n c (pre.map abs) (post.map abs))
      | mStart n c pre post pc o b res sn ms t hc hsy ht =>
        exact absurd (congrArg St.next e) (by simp [absSt])
      | mExit n c pre post pc o b res sn ms hc hsy ht =>
        have := congrArg St.ws e
        simp [absSt, abs] at this
      | mDone n c pre post pc o b res sn ms i hc hsy =>
        have := congrArg St.ws e
        simp [absSt, abs] at this
      | mClosed n c pre post pc o b res sn ms hc hsy =>
        exact absurd (congrArg St.closed e) (by simp [absSt])
    · exact key e
  have hrun : ∀ (k : Nat) (s : MSt τ β), MRun sync f tasks k (minit τ β sizes) s →
      k + ((K + 1) * weight tasks (absSt s) + (s.gs.map phi).sum) ≤ (K + 1) * (6 * tasks.length + 5 * sizes.length) := by
    intro k s h
    generalize hs : minit τ β sizes = s0 at h
    induction h with
    | nil =>
      subst hs
      have h1 : weight tasks (absSt (minit τ β sizes)) = 6 * tasks.length + 5 * sizes.length := by
        rw [absSt_init]
        simp [weight, init, wWeight, pcWeight]; omega
      have h2 : ((minit τ β sizes).gs.map phi).sum = 0 := by
        simp [minit, phi, Function.comp_def]
      rw [h1, h2]; omega
    | cons k s s' s'' h1 h2 ih =>
      subst hs
      have := hstep _ _ (mrun_inv sync f tasks sizes _ _ h1) h2
      have := ih rfl
      omega
  have := hrun k s h
  omega

theorem mrun_cons (sync : Bool) (f : τ → β) (tasks : List τ) (j : Nat) (a b c : MSt τ β) (h1 : MStep sync f tasks a b) (h2 : MRun sync f tasks j b c) :
    MRun sync f tasks (j + 1) a c := by
  induction h2 with
  | nil => exact .cons _ _ _ _ (.nil _) h1
  | cons k s s' s'' _ h3 ih => exact .cons _ _ _ _ (ih h1) h3

/-- **C106**: every execution can be continued to its end, and no longer than `ranks_bound` allows. -/
theorem ranks_complete (sync : Bool) (f : τ → β) (tasks : List τ) (sizes : List Nat) (k : Nat) (s : MSt τ β)
    (h : MRun sync f tasks k (minit τ β sizes) s) : ∃ j s', MRun sync f tasks j s s' ∧ s'.closed = sizes.length := by
  obtain ⟨n, hn⟩ : ∃ n, n = (3 * (sizes.map (· + 1)).sum + 1) * (6 * tasks.length + 5 * sizes.length) - k := ⟨_, rfl⟩
  induction n generalizing k s with
  | zero =>
    rcases ranks_no_deadlock sync f tasks sizes k s h with ⟨s', h1⟩ | ⟨h1, -⟩
    · have := ranks_bound sync f tasks sizes (k + 1) s' (.cons _ _ _ _ h h1)
      omega
    · exact ⟨0, s, .nil _, h1⟩
  | succ n ih =>
    rcases ranks_no_deadlock sync f tasks sizes k s h with ⟨s', h1⟩ | ⟨h1, -⟩
    · obtain ⟨j, s'', h2, h3⟩ := ih (k + 1) s' (.cons _ _ _ _ h h1) (by omega)
      exact ⟨j + 1, s'', mrun_cons sync f tasks j _ _ _ h1 h2, h3⟩
    · exact ⟨0, s, .nil _, h1⟩

/-- Groups of 2 and 3 ranks finish three tasks. -/
example : ∃ j s, MRun true (fun n : Nat => n + 1) [7, 8, 9] j (minit Nat Nat [1, 2]) s ∧ s.closed = 2 ∧ mMapResult s = [8, 9, 10] := by
  obtain ⟨j, s, h, hc⟩ := ranks_complete true (fun n : Nat => n + 1) [7, 8, 9] [1, 2] 0 _ (.nil _)
  exact ⟨j, s, h, hc, (ranks_finish true _ _ _ (by simp) j s h hc).2.2⟩

end NBK.TaskMgr
