import Verif.Batch.Model
import Mathlib.Algebra.BigOperators.Group.List.Basic
import Mathlib.Algebra.Order.BigOperators.Group.List

/-! Lemmas for the task manager model (helpers only). -/
set_option linter.unusedSimpArgs false
namespace NBK.Batch

theorem cuts_flatten {α : Type} (l : List α) (a : Nat → Nat) (h : ∀ i, a i ≤ a (i + 1)) (k : Nat) :
    ((List.range k).map fun (i : Nat) => (l.drop (a i)).take (a (i + 1) - a i)).flatten
      = (l.drop (a 0)).take (a k - a 0) := by
  have mono : ∀ k, a 0 ≤ a k := by
    intro k; induction k with
    | zero => omega
    | succ k ih => have := h k; omega
  induction k with
  | zero => simp
  | succ k ih =>
    rw [List.range_succ, List.map_append, List.flatten_append, ih]
    have h1 := mono k
    have h2 := h k
    have e : a (k + 1) - a 0 = (a k - a 0) + (a (k + 1) - a k) := by omega
    rw [e, List.take_add, List.drop_drop]
    simp only [List.map_cons, List.map_nil, List.flatten_cons, List.flatten_nil, List.append_nil]
    congr 3; omega

theorem start_mono (q m i : Nat) : i * q + min i m ≤ (i + 1) * q + min (i + 1) m := by
  have : (i + 1) * q = i * q + q := by rw [Nat.add_mul, Nat.one_mul]
  omega

theorem arraySplit_flatten {α : Type} (l : List α) (k : Nat) (hk : 0 < k) :
    (arraySplit l k).flatten = l := by
  unfold arraySplit
  simp only
  rw [cuts_flatten l (fun i => i * (l.length / k) + min i (l.length % k)) (fun i => start_mono _ _ i) k]
  have hm : l.length % k < k := Nat.mod_lt _ hk
  have := Nat.div_add_mod l.length k
  have e : min k (l.length % k) = l.length % k := by omega
  simp only [Nat.zero_mul, Nat.zero_min, Nat.add_zero, List.drop_zero, Nat.sub_zero, e]
  rw [this]; simp

theorem arraySplit_length {α : Type} (l : List α) (k : Nat) : (arraySplit l k).length = k := by
  simp [arraySplit]

theorem arraySplit_size {α : Type} (l : List α) (k : Nat) (hk : 0 < k) (c : List α) (hc : c ∈ arraySplit l k) :
    l.length / k ≤ c.length ∧ c.length ≤ l.length / k + 1 := by
  simp only [arraySplit, List.mem_map, List.mem_range] at hc
  obtain ⟨i, hi, rfl⟩ := hc
  have hm : l.length % k < k := Nat.mod_lt _ hk
  have hd := Nat.div_add_mod l.length k
  generalize l.length / k = q at *
  generalize l.length % k = m at *
  have h1 : (i + 1) * q = i * q + q := by rw [Nat.add_mul, Nat.one_mul]
  have h2 : (i + 1) * q ≤ k * q := Nat.mul_le_mul_right q hi
  simp only [List.length_take, List.length_drop]
  omega

/-! ### the protocol -/

variable {τ β : Type}

/-- results plus the work a worker holds -/
def held (f : τ → β) (w : Worker τ β) : List (Nat × β) :=
  w.results ++ (match w.pc with | .computing i t => [(i, f t)] | _ => [])
    ++ w.inb.filterMap (fun m => match m with | .start i t => some (i, f t) | .exit => none)

/-- per-worker invariant; `n` is the master's index, `N` the number of tasks -/
def WInv (n N : Nat) (w : Worker τ β) : Prop :=
  match w.pc with
  | .top => w.inb = [] ∧ (w.out = [] ∨ ∃ i, w.out = [.done i])
  | .waiting => (w.inb = [] ∧ (w.out = [.ready] ∨ ∃ i, w.out = [.done i, .ready])) ∨
      (w.out = [] ∧ ((∃ i t, w.inb = [.start i t]) ∨ (w.inb = [.exit] ∧ n = N)))
  | .computing _ _ => w.inb = [] ∧ w.out = []
  | .reporting _ => w.inb = [] ∧ w.out = []
  | .exiting => w.inb = [] ∧ w.out = [] ∧ n = N
  | .exited => w.inb = [] ∧ (w.out = [] ∨ w.out = [.exit]) ∧ n = N

/-- the worker has exited and the master knows -/
def isClosed (w : Worker τ β) : Nat :=
  match w.pc, w.out with
  | .exited, [] => 1
  | _, _ => 0

/-- the first `n` results -/
def expected (f : τ → β) (tasks : List τ) (n : Nat) : List (Nat × β) :=
  (tasks.take n).mapIdx fun i t => (i, f t)

structure Inv (f : τ → β) (tasks : List τ) (s : St τ β) : Prop where
  le : s.next ≤ tasks.length
  w : ∀ w ∈ s.ws, WInv s.next tasks.length w
  closed : s.closed = (s.ws.map isClosed).sum
  acc : (s.ws.flatMap (held f)).Perm (expected f tasks s.next)

theorem expected_succ (f : τ → β) (tasks : List τ) (n : Nat) (t : τ) (h : tasks[n]? = some t) :
    expected f tasks (n + 1) = expected f tasks n ++ [(n, f t)] := by
  obtain ⟨hn, rfl⟩ := List.getElem?_eq_some_iff.mp h
  unfold expected
  rw [List.take_succ_eq_append_getElem hn, List.mapIdx_append]
  simp [Nat.min_eq_left (Nat.le_of_lt hn)]

theorem WInv_mono {n n' N : Nat} (w : Worker τ β) (hn : n ≤ n') (hN : n' ≤ N) (h : WInv n N w) : WInv n' N w := by
  obtain ⟨pc, o, b, r⟩ := w
  cases pc <;> simp only [WInv] at * <;> try assumption
  · rcases h with h | ⟨h1, h2 | ⟨h2, h3⟩⟩
    · exact Or.inl h
    · exact Or.inr ⟨h1, Or.inl h2⟩
    · exact Or.inr ⟨h1, Or.inr ⟨h2, by omega⟩⟩
  · exact ⟨h.1, h.2.1, by omega⟩
  · exact ⟨h.1, h.2.1, by omega⟩

theorem inv_init (f : τ → β) (tasks : List τ) (W : Nat) : Inv f tasks (init τ β W) := by
  refine ⟨by simp [init], ?_, ?_, ?_⟩
  · intro w hw
    simp only [init, List.mem_replicate] at hw
    rw [hw.2]; simp [WInv]
  · simp [init, isClosed]
  · simp [init, expected, held, List.flatMap_replicate]

theorem perm_mid {γ : Type} (A B B' C D E : List γ) (h : (A ++ (B ++ C)).Perm D) (h' : B'.Perm (B ++ E)) :
    (A ++ (B' ++ C)).Perm (D ++ E) := by
  have h1 : (A ++ (B' ++ C)).Perm (A ++ ((B ++ E) ++ C)) :=
    List.Perm.append_left _ (List.Perm.append_right _ h')
  have h2 : (A ++ ((B ++ E) ++ C)).Perm (A ++ ((B ++ C) ++ E)) := by
    apply List.Perm.append_left
    rw [List.append_assoc, List.append_assoc]
    exact List.Perm.append_left _ List.perm_append_comm
  have h3 : (A ++ ((B ++ C) ++ E)).Perm (D ++ E) := by
    rw [← List.append_assoc]; exact List.Perm.append_right _ h
  exact (h1.trans h2).trans h3

theorem inv_step (sync : Bool) (f : τ → β) (tasks : List τ) (s s' : St τ β) (hi : Inv f tasks s)
    (h : Step sync f tasks s s') : Inv f tasks s' := by
  obtain ⟨le, hw, hc, acc⟩ := hi
  cases h with
  | sendReady n c pre post o b res h =>
    have hm := hw _ (List.mem_append_right pre (List.mem_cons_self))
    refine ⟨le, ?_, ?_, ?_⟩
    · intro w hw'
      simp only [List.mem_append, List.mem_cons] at hw'
      rcases hw' with h1 | h1 | h1
      · exact hw w (by simp [h1])
      · subst h1; simp only [WInv] at hm ⊢
        obtain ⟨h1, h2 | ⟨i, h2⟩⟩ := hm
        · left; exact ⟨h1, Or.inl (by simp [h2])⟩
        · left; exact ⟨h1, Or.inr ⟨i, by simp [h2]⟩⟩
      · exact hw w (by simp [h1])
    · simpa [isClosed] using hc
    · simpa [held] using acc
  | recvStart n c pre post o b res i t h =>
    have hm := hw _ (List.mem_append_right pre (List.mem_cons_self))
    simp only [WInv] at hm
    have hb : b = [] ∧ o = [] := by
      rcases hm with ⟨h1, _⟩ | ⟨h1, ⟨i', t', h2⟩ | ⟨h2, h3⟩⟩
      · simp at h1
      · simp at h2; exact ⟨h2.2, h1⟩
      · simp at h2
    obtain ⟨rfl, rfl⟩ := hb
    refine ⟨le, ?_, ?_, ?_⟩
    · intro w hw'
      simp only [List.mem_append, List.mem_cons] at hw'
      rcases hw' with h1 | h1 | h1
      · exact hw w (by simp [h1])
      · subst h1; simp [WInv]
      · exact hw w (by simp [h1])
    · simpa [isClosed] using hc
    · simpa [held] using acc
  | recvExit n c pre post o b res h =>
    have hm := hw _ (List.mem_append_right pre (List.mem_cons_self))
    simp only [WInv] at hm
    have hb : b = [] ∧ o = [] ∧ n = tasks.length := by
      rcases hm with ⟨h1, _⟩ | ⟨h1, ⟨i', t', h2⟩ | ⟨h2, h3⟩⟩
      · simp at h1
      · simp at h2
      · simp at h2; exact ⟨h2, h1, h3⟩
    obtain ⟨rfl, rfl, hn⟩ := hb
    refine ⟨le, ?_, ?_, ?_⟩
    · intro w hw'
      simp only [List.mem_append, List.mem_cons] at hw'
      rcases hw' with h1 | h1 | h1
      · exact hw w (by simp [h1])
      · subst h1; simpa [WInv] using hn
      · exact hw w (by simp [h1])
    · simpa [isClosed] using hc
    · simpa [held] using acc
  | compute n c pre post o b res i t =>
    have hm := hw _ (List.mem_append_right pre (List.mem_cons_self))
    refine ⟨le, ?_, ?_, ?_⟩
    · intro w hw'
      simp only [List.mem_append, List.mem_cons] at hw'
      rcases hw' with h1 | h1 | h1
      · exact hw w (by simp [h1])
      · subst h1; simpa [WInv] using hm
      · exact hw w (by simp [h1])
    · simpa [isClosed] using hc
    · simpa [held] using acc
  | sendDone n c pre post o b res i h =>
    have hm := hw _ (List.mem_append_right pre (List.mem_cons_self))
    refine ⟨le, ?_, ?_, ?_⟩
    · intro w hw'
      simp only [List.mem_append, List.mem_cons] at hw'
      rcases hw' with h1 | h1 | h1
      · exact hw w (by simp [h1])
      · subst h1; simp only [WInv] at hm ⊢
        exact ⟨hm.1, Or.inr ⟨i, by simp [hm.2]⟩⟩
      · exact hw w (by simp [h1])
    · simpa [isClosed] using hc
    · simpa [held] using acc
  | sendExit n c pre post o b res h =>
    have hm := hw _ (List.mem_append_right pre (List.mem_cons_self))
    simp only [WInv] at hm
    obtain ⟨h1, rfl, h3⟩ := hm
    refine ⟨le, ?_, ?_, ?_⟩
    · intro w hw'
      simp only [List.mem_append, List.mem_cons] at hw'
      rcases hw' with h1 | h1 | h1
      · exact hw w (by simp [h1])
      · subst h1; simp_all [WInv]
      · exact hw w (by simp [h1])
    · simpa [isClosed] using hc
    · simpa [held] using acc
  | mStart n c pre post pc o b res t hcl hs ht =>
    have hm := hw _ (List.mem_append_right pre (List.mem_cons_self))
    have hn : n < tasks.length := (List.getElem?_eq_some_iff.mp ht).1
    have hpc : pc = .waiting ∧ o = [] ∧ b = [] := by
      cases pc <;> simp [WInv] at hm
      exact ⟨rfl, hm.2, hm.1⟩
    obtain ⟨rfl, rfl, rfl⟩ := hpc
    refine ⟨hn, ?_, ?_, ?_⟩
    · intro w hw'
      simp only [List.mem_append, List.mem_cons] at hw'
      rcases hw' with h1 | h1 | h1
      · exact WInv_mono w (Nat.le_succ n) hn (hw w (by simp [h1]))
      · subst h1; simp [WInv]
      · exact WInv_mono w (Nat.le_succ n) hn (hw w (by simp [h1]))
    · simpa [isClosed] using hc
    · simp only [List.flatMap_append, List.flatMap_cons] at acc ⊢
      rw [expected_succ f tasks n t ht]
      refine perm_mid _ _ _ _ _ _ acc ?_
      simp [held]
  | mExit n c pre post pc o b res hcl hs ht =>
    have hm := hw _ (List.mem_append_right pre (List.mem_cons_self))
    have hpc : pc = .waiting ∧ o = [] ∧ b = [] := by
      cases pc <;> simp [WInv] at hm
      exact ⟨rfl, hm.2, hm.1⟩
    obtain ⟨rfl, rfl, rfl⟩ := hpc
    refine ⟨le, ?_, ?_, ?_⟩
    · intro w hw'
      simp only [List.mem_append, List.mem_cons] at hw'
      rcases hw' with h1 | h1 | h1
      · exact hw w (by simp [h1])
      · subst h1; simp only [WInv]; simp only at le
        exact Or.inr ⟨by simp, Or.inr ⟨by simp, by omega⟩⟩
      · exact hw w (by simp [h1])
    · simpa [isClosed] using hc
    · simpa [held] using acc
  | mDone n c pre post pc o b res i hcl hs =>
    have hm := hw _ (List.mem_append_right pre (List.mem_cons_self))
    refine ⟨le, ?_, ?_, ?_⟩
    · intro w hw'
      simp only [List.mem_append, List.mem_cons] at hw'
      rcases hw' with h1 | h1 | h1
      · exact hw w (by simp [h1])
      · subst h1
        cases pc <;> simp [WInv] at hm ⊢
        · exact ⟨hm.1, Or.inl hm.2⟩
        · exact Or.inl ⟨hm.1, Or.inl hm.2⟩
      · exact hw w (by simp [h1])
    · have : isClosed (⟨pc, o, b, res⟩ : Worker τ β) = 0 := by
        cases pc <;> simp [WInv] at hm <;> simp [isClosed]
      have h2 : isClosed (⟨pc, .done i :: o, b, res⟩ : Worker τ β) = 0 := by
        cases pc <;> simp [isClosed]
      simp [this, h2] at hc ⊢
      exact hc
    · simpa [held] using acc
  | mClosed n c pre post pc o b res hcl hs =>
    have hm := hw _ (List.mem_append_right pre (List.mem_cons_self))
    have hpc : pc = .exited ∧ o = [] ∧ b = [] ∧ n = tasks.length := by
      cases pc <;> simp [WInv] at hm
      exact ⟨rfl, hm.2.1, hm.1, hm.2.2⟩
    obtain ⟨rfl, rfl, rfl, hn⟩ := hpc
    refine ⟨le, ?_, ?_, ?_⟩
    · intro w hw'
      simp only [List.mem_append, List.mem_cons] at hw'
      rcases hw' with h1 | h1 | h1
      · exact hw w (by simp [h1])
      · subst h1; simpa [WInv] using hn
      · exact hw w (by simp [h1])
    · simp [isClosed] at hc ⊢
      omega
    · simpa [held] using acc

theorem inv_reach (sync : Bool) (f : τ → β) (tasks : List τ) (W : Nat) (s : St τ β)
    (h : Reach sync f tasks (init τ β W) s) : Inv f tasks s := by
  generalize hs : init τ β W = s0 at h
  induction h with
  | refl => subst hs; exact inv_init f tasks W
  | step s' s'' _ h ih => exact inv_step sync f tasks _ _ ih h

/-! ### termination measure -/

def pcWeight : Pc τ → Nat
  | .top => 5 | .waiting => 0 | .computing _ _ => 8 | .reporting _ => 7 | .exiting => 2 | .exited => 0
def outWeight : ToMaster → Nat
  | .ready => 4 | .done _ => 1 | .exit => 1
def inWeight : ToWorker τ → Nat
  | .start _ _ => 9 | .exit => 3
def wWeight (w : Worker τ β) : Nat := pcWeight w.pc + (w.out.map outWeight).sum + (w.inb.map inWeight).sum

/-- work left -/
def weight (tasks : List τ) (s : St τ β) : Nat := 6 * (tasks.length - s.next) + (s.ws.map wWeight).sum

theorem weight_step (sync : Bool) (f : τ → β) (tasks : List τ) (s s' : St τ β) (h : Step sync f tasks s s') :
    weight tasks s' < weight tasks s := by
  cases h with
  | mStart n c pre post pc o b res t hcl hs ht =>
    have hn : n < tasks.length := (List.getElem?_eq_some_iff.mp ht).1
    simp [weight, wWeight, pcWeight, outWeight, inWeight]; omega
  | _ => simp [weight, wWeight, pcWeight, outWeight, inWeight] <;> omega

theorem closed_le (l : List (Worker τ β)) : (l.map isClosed).sum ≤ l.length := by
  induction l with
  | nil => simp
  | cons w l ih =>
    have : isClosed w ≤ 1 := by unfold isClosed; split <;> omega
    simp; omega

theorem closed_lt (pre post : List (Worker τ β)) (w : Worker τ β) (h : isClosed w = 0) :
    ((pre ++ w :: post).map isClosed).sum < (pre ++ w :: post).length := by
  have h1 := closed_le pre
  have h2 := closed_le post
  simp [h]; omega

theorem closed_all (l : List (Worker τ β)) (h : ∀ w ∈ l, isClosed w = 1) : (l.map isClosed).sum = l.length := by
  induction l with
  | nil => simp
  | cons w l ih =>
    have := h w (by simp)
    have := ih (fun w hw => h w (by simp [hw]))
    simp; omega

theorem all_closed (l : List (Worker τ β)) (h : (l.map isClosed).sum = l.length) : ∀ w ∈ l, isClosed w = 1 := by
  intro w hw
  obtain ⟨pre, post, rfl⟩ := List.append_of_mem hw
  by_contra hc
  have h1 : isClosed w ≤ 1 := by unfold isClosed; split <;> omega
  have := closed_lt pre post w (by omega)
  omega

end NBK.Batch
