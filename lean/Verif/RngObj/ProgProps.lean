import Verif.RngObj.Props
import Mathlib.Data.List.Forall2
import Mathlib.Data.List.Perm.Subperm

/-! # Programs of calls, arguments and shapes, choices without replacement -/
set_option linter.unusedSimpArgs false
namespace NBK.RngObj
variable {σ χ α β : Type}

/-! ## Arguments -/

theorem bdim_self (a : Nat) : bdim a a = some a := by simp [bdim]

theorem bshapeRev_append (l m : List Nat) : bshapeRev (l ++ m) l = some (l ++ m) := by
  induction l with
  | nil => cases m <;> rfl
  | cons a l ih =>
    have e : bshapeRev (a :: l ++ m) (a :: l) = match bdim a a, bshapeRev (l ++ m) l with
      | some d, some s => some (d :: s)
      | _, _ => none := rfl
    rw [e, bdim_self, ih]; rfl

theorem bshape_self (s : List Nat) : bshape s s = some s := by
  unfold bshape
  have := bshapeRev_append s.reverse []
  rw [List.append_nil] at this
  rw [this]; simp

theorem bshape_item (n : Nat) (s : List Nat) : bshape (n :: s) s = some (n :: s) := by
  unfold bshape
  rw [List.reverse_cons, bshapeRev_append]; simp

/-- The arrays that suit `size` items of a shape: one value for every item, or one item for all. -/
def Suits (size : Nat) (item : List Nat) : Arg α → Prop
  | .scalar _ => True
  | .array a => a.shape = size :: item ∨ a.shape = item

theorem bshapes_suits (size : Nat) (item : List Nat) (args : List (Arg α)) (h : ∀ a ∈ args, Suits size item a) : bshapes (size :: item) args = some (size :: item) := by
  induction args with
  | nil => rfl
  | cons a args ih =>
    have ih := ih fun b hb => h b (List.mem_cons_of_mem _ hb)
    have ha := h a (List.mem_cons_self ..)
    cases a with
    | scalar x => exact ih
    | array a =>
      have e : bshapes (size :: item) (.array a :: args) = match bshape (size :: item) a.shape with
        | some t => bshapes t args
        | none => none := rfl
      have hb : bshape (size :: item) a.shape = some (size :: item) := by
        rcases ha with ha | ha
        · rw [ha]; exact bshape_self _
        · rw [ha]; exact bshape_item _ _
      rw [e, hb]; exact ih

theorem reindex_self (shape idx : List Nat) (h : idx ∈ indices shape) : reindex shape idx = idx := by
  have key : ∀ (shape idx : List Nat), idx ∈ indices shape → idx.length = shape.length ∧ (shape.zip idx).map (fun p => if p.1 = 1 then 0 else p.2) = idx := by
    intro shape
    induction shape with
    | nil => intro idx h; simp [indices] at h; subst h; exact ⟨rfl, rfl⟩
    | cons d s ih =>
      intro idx h
      simp only [indices, List.mem_flatMap, List.mem_range, List.mem_map] at h
      obtain ⟨i, hi, t, ht, rfl⟩ := h
      obtain ⟨h1, h2⟩ := ih t ht
      refine ⟨by simp [h1], ?_⟩
      simp only [List.zip_cons_cons, List.map_cons, h2]
      by_cases hd : d = 1
      · rw [if_pos hd, show i = 0 by omega]
      · rw [if_neg hd]
  obtain ⟨h1, h2⟩ := key shape idx h
  unfold reindex
  rw [h1, Nat.sub_self, List.drop_zero, h2]

theorem reindex_item (shape idx : List Nat) (i : Nat) (h : idx ∈ indices shape) : reindex shape (i :: idx) = idx := by
  have hl : idx.length = shape.length := by
    have : ∀ (shape idx : List Nat), idx ∈ indices shape → idx.length = shape.length := by
      intro shape
      induction shape with
      | nil => intro idx h; simp [indices] at h; subst h; rfl
      | cons d s ih =>
        intro idx h
        simp only [indices, List.mem_flatMap, List.mem_range, List.mem_map] at h
        obtain ⟨i, hi, t, ht, rfl⟩ := h
        simp [ih t ht]
    exact this shape idx h
  have h2 := reindex_self shape idx h
  unfold reindex at h2 ⊢
  rw [hl, Nat.sub_self, List.drop_zero] at h2
  rw [List.length_cons, hl, show shape.length + 1 - shape.length = 1 by omega, List.drop_one, List.tail_cons, h2]

/-- The values that row `i` of an argument means. -/
def meaning (item : List Nat) (i : Nat) : Arg α → List α
  | .scalar x => (indices item).map fun _ => x
  | .array a => if a.shape = item then (indices item).map a.at' else (indices item).map fun idx => a.at' (i :: idx)

/-- Arguments that suit give one row per item with the values meant. -/
theorem prepare_suits (size : Nat) (item : List Nat) (args : List (Arg α)) (h : ∀ a ∈ args, Suits size item a) :
    prepare size item args = .ok (item, (List.range size).map fun i => args.map (meaning item i)) := by
  unfold prepare
  rw [bshapes_suits size item args h]
  dsimp only
  congr 2
  apply List.map_congr_left
  intro i hi
  rw [List.mem_range] at hi
  apply List.map_congr_left
  intro a ha
  have hs := h a ha
  cases a with
  | scalar x => rfl
  | array a =>
    unfold Arg.row meaning
    dsimp only
    by_cases e : a.shape = item
    · rw [if_pos e]
      apply List.map_congr_left
      intro idx hidx
      rw [e, reindex_item item idx i hidx]
    · rw [if_neg e]
      have e' : a.shape = size :: item := hs.resolve_right e
      apply List.map_congr_left
      intro idx hidx
      rw [e', reindex_self]
      simp only [indices, List.mem_flatMap, List.mem_range, List.mem_map]
      exact ⟨i, hi, idx, hidx, rfl⟩

/-- On a rank with one item an array of any length is accepted, and gives as many rows as it has. -/
theorem prepare_one (n : Nat) (f : List Nat → α) : ∃ rows, prepare 1 [] [.array ⟨[n], f⟩] = .ok ([], rows) ∧ rows.length = n := by
  by_cases h : n = 1
  · subst h; exact ⟨_, rfl, rfl⟩
  · have e : bshapes [1] [Arg.array (⟨[n], f⟩ : Nd α)] = some [n] := by
      simp [bshapes, bshape, bshapeRev, bdim, Ne.symm h]
    unfold prepare
    rw [e]
    exact ⟨_, rfl, by simp⟩

/-- On the other ranks an array of another length is refused, unless it has one element. -/
theorem prepare_bad (size n : Nat) (f : List Nat → α) (h1 : size ≠ 1) (h2 : n ≠ size) (h3 : n ≠ 1) : prepare size [] [.array ⟨[n], f⟩] = .error .valueError := by
  have e : bshapes [size] [Arg.array (⟨[n], f⟩ : Nd α)] = none := by
    simp [bshapes, bshape, bshapeRev, bdim, h1, Ne.symm h2, h3]
  unfold prepare
  rw [e]

/-! ## Programs -/

/-- Two calls with the same sampler and the same rows of all ranks together, on which the sampler always succeeds. -/
def Same (gen : Gen σ χ α β) (o₁ o₂ : Obj σ) (k₁ k₂ : Call χ α) : Prop :=
  k₁.method = k₂.method ∧ Sequential (gen k₁.method)
    ∧ ∃ D₁ D₂, Rows o₁ k₁ D₁ ∧ Rows o₂ k₂ D₂ ∧ D₁.flatten = D₂.flatten ∧ ∀ s j, ∃ out, gen k₁.method s (chunk o₁.c D₁.flatten j) = .ok out

/-- Results on two sets of ranks that are the same numbers. -/
def Agree (o₁ o₂ : Obj σ) (R₁ R₂ : List (Res β)) : Prop :=
  ∃ outs₁ outs₂ : List (List β), R₁ = outs₁.map Res.ok ∧ R₂ = outs₂.map Res.ok ∧ outs₁.map List.length = o₁.sizes ∧ outs₂.map List.length = o₂.sizes ∧ outs₁.flatten = outs₂.flatten

theorem call_agree (gen : Gen σ χ α β) (o₁ o₂ : Obj σ) (hc : 0 < o₁.c) (h1 : o₁.c = o₂.c) (h2 : o₁.seedOf = o₂.seedOf) (h3 : o₁.drawn = o₂.drawn) (k₁ k₂ : Call χ α)
    (h : Same gen o₁ o₂ k₁ k₂) : Agree o₁ o₂ (o₁.call gen k₁).2 (o₂.call gen k₂).2 := by
  obtain ⟨hm, hg, D₁, D₂, hD₁, hD₂, hf, hok⟩ := h
  have t1 := total_eq o₁ D₁ hD₁.2
  have t2 := total_eq o₂ D₂ hD₂.2
  obtain ⟨u₁, a1, a2, a3⟩ := call_values gen o₁ hc k₁ hg D₁ hD₁ fun j _ => hok _ j
  obtain ⟨u₂, b1, b2, b3⟩ := call_values gen o₂ (h1 ▸ hc) k₂ (hm ▸ hg) D₂ hD₂ fun j _ => by rw [← hm, ← hf, ← h1]; exact hok _ j
  refine ⟨u₁, u₂, a1, b1, a2, b2, ?_⟩
  have l1 : u₁.flatten.length = o₁.sizes.sum := by rw [List.length_flatten, a2]
  have l2 : u₂.flatten.length = o₂.sizes.sum := by rw [List.length_flatten, b2]
  apply List.ext_getElem?
  intro i
  by_cases hi : i < o₁.sizes.sum
  · obtain ⟨x, x1, x2⟩ := a3 i hi
    obtain ⟨y, y1, y2⟩ := b3 i (by rw [← t2, ← hf, t1]; exact hi)
    rw [← hm, ← hf, ← h1, ← h2, ← h3] at y1
    rw [y1] at x1
    cases x1
    rw [x2, y2, h1]
  · rw [List.getElem?_eq_none (by omega), List.getElem?_eq_none (by rw [l2, ← t2, ← hf, t1]; omega)]

theorem agree_no_hang {o₁ o₂ : Obj σ} {R₁ R₂ : List (Res β)} (h : Agree o₁ o₂ R₁ R₂) : R₁.any Res.hangs = false ∧ R₂.any Res.hangs = false := by
  obtain ⟨u, v, rfl, rfl, _⟩ := h
  constructor <;> simp [Res.hangs]

theorem call_obj (gen : Gen σ χ α β) (o : Obj σ) (k : Call χ α) : (o.call gen k).1 = { o with drawn := o.drawn + o.nchunks } := by
  unfold Obj.call
  dsimp only
  split
  · rfl
  · split
    · rfl
    · split <;> rfl

/-- **Programs.** The numbers of all the calls of a program do not depend on the number of ranks and the division of the rows. -/
theorem run_agree (gen : Gen σ χ α β) (o₁ o₂ : Obj σ) (hc : 0 < o₁.c) (h1 : o₁.c = o₂.c) (h2 : o₁.seedOf = o₂.seedOf) (h3 : o₁.drawn = o₂.drawn) (hs : o₁.sizes.sum = o₂.sizes.sum)
    (p₁ p₂ : List (Call χ α)) (h : List.Forall₂ (Same gen o₁ o₂) p₁ p₂) : List.Forall₂ (Agree o₁ o₂) (run gen o₁ p₁).2 (run gen o₂ p₂).2 := by
  induction p₁ generalizing o₁ o₂ p₂ with
  | nil => cases h; exact List.Forall₂.nil
  | cons k₁ l₁ ih =>
    cases h with
    | @cons _ k₂ _ l₂ hk hl =>
      have ha := call_agree gen o₁ o₂ hc h1 h2 h3 k₁ k₂ hk
      obtain ⟨n1, n2⟩ := agree_no_hang ha
      have e1 : (run gen o₁ (k₁ :: l₁)).2 = (o₁.call gen k₁).2 :: (run gen { o₁ with drawn := o₁.drawn + o₁.nchunks } l₁).2 := by
        have e0 : run gen o₁ (k₁ :: l₁) = if (o₁.call gen k₁).2.any Res.hangs then ((o₁.call gen k₁).1, [(o₁.call gen k₁).2])
            else ((run gen (o₁.call gen k₁).1 l₁).1, (o₁.call gen k₁).2 :: (run gen (o₁.call gen k₁).1 l₁).2) := rfl
        rw [e0, if_neg (by rw [n1]; simp), call_obj]
      have e2 : (run gen o₂ (k₂ :: l₂)).2 = (o₂.call gen k₂).2 :: (run gen { o₂ with drawn := o₂.drawn + o₂.nchunks } l₂).2 := by
        have e0 : run gen o₂ (k₂ :: l₂) = if (o₂.call gen k₂).2.any Res.hangs then ((o₂.call gen k₂).1, [(o₂.call gen k₂).2])
            else ((run gen (o₂.call gen k₂).1 l₂).1, (o₂.call gen k₂).2 :: (run gen (o₂.call gen k₂).1 l₂).2) := rfl
        rw [e0, if_neg (by rw [n2]; simp), call_obj]
      rw [e1, e2]
      refine List.Forall₂.cons ha ?_
      exact ih { o₁ with drawn := o₁.drawn + o₁.nchunks } { o₂ with drawn := o₂.drawn + o₂.nchunks } hc h1 h2
        (by simp only [Obj.nchunks, h1, h3, hs]) hs l₂ hl

/-- Call number `i` uses the seeds after those of the calls before it, whether they raised or not. -/
theorem run_seeds (gen : Gen σ χ α β) (o : Obj σ) (p : List (Call χ α)) (i : Nat) (R : List (Res β)) (h : (run gen o p).2[i]? = some R) :
    ∃ k, p[i]? = some k ∧ R = (({ o with drawn := o.drawn + i * o.nchunks } : Obj σ).call gen k).2 := by
  induction p generalizing o i with
  | nil => simp [run] at h
  | cons k l ih =>
    unfold run at h
    dsimp only at h
    split at h
    · cases i with
      | zero => refine ⟨k, rfl, ?_⟩; simp at h; rw [← h]; simp
      | succ i => simp at h
    · cases i with
      | zero => refine ⟨k, rfl, ?_⟩; simp at h; rw [← h]; simp
      | succ i =>
        rw [List.getElem?_cons_succ, call_obj] at h
        obtain ⟨k', h1, h2⟩ := ih _ i h
        refine ⟨k', h1, ?_⟩
        rw [h2]
        congr 3
        simp only [Obj.nchunks, Nat.add_mul, Nat.one_mul]
        omega

/-- Different calls, and different chunks of a call, use different places in the stream of seeds. -/
theorem seeds_fresh (o : Obj σ) (i i' j j' : Nat) (h : j < o.nchunks) (h' : j' < o.nchunks)
    (e : o.drawn + i * o.nchunks + j = o.drawn + i' * o.nchunks + j') : i = i' ∧ j = j' := by
  have h0 : 0 < o.nchunks := by omega
  have e1 : i * o.nchunks + j = i' * o.nchunks + j' := by omega
  rcases Nat.lt_trichotomy i i' with q | q | q
  · have := Nat.mul_le_mul_right o.nchunks (Nat.succ_le_of_lt q)
    rw [Nat.succ_mul] at this
    omega
  · subst q; exact ⟨rfl, by omega⟩
  · have := Nat.mul_le_mul_right o.nchunks (Nat.succ_le_of_lt q)
    rw [Nat.succ_mul] at this
    omega

/-! ## Choices -/

/-- Contract of `RandomState.choice(choices, size, replace=False)`: elements of the list at different places. -/
def NoReplacement [DecidableEq χ] (gen : Gen σ χ α χ) : Prop :=
  ∀ cs s rows out, gen (.choice cs false none) s rows = .ok out → (cs.Nodup → out.Nodup) ∧ ∀ x ∈ out, x ∈ cs

/-- Within a chunk the choices differ, if those of the list do. -/
theorem choice_chunk [DecidableEq χ] (gen : Gen σ χ α χ) (hn : NoReplacement gen) (o : Obj σ) (hc : 0 < o.c) (k : Call χ α) (cs : List χ) (hcs : cs.Nodup) (hk : k.method = .choice cs false none)
    (hg : Sequential (gen k.method)) (D : List (List (Row α))) (h : Rows o k D)
    (hok : ∀ j, j * o.c < o.sizes.sum → ∃ out, gen k.method (o.seedOf (o.drawn + j)) (chunk o.c D.flatten j) = .ok out) :
    ∃ outs : List (List χ), (o.call gen k).2 = outs.map Res.ok
      ∧ ∀ i i' x, i < o.sizes.sum → i' < o.sizes.sum → i / o.c = i' / o.c → outs.flatten[i]? = some x → outs.flatten[i']? = some x → i = i' := by
  obtain ⟨outs, h1, h2, h3⟩ := call_values gen o hc k hg D h hok
  refine ⟨outs, h1, fun i i' x hi hi' hd e e' => ?_⟩
  obtain ⟨u, u1, u2⟩ := h3 i hi
  obtain ⟨v, v1, v2⟩ := h3 i' hi'
  rw [← hd, u1] at v1
  cases v1
  rw [e] at u2
  rw [e'] at v2
  rw [hk] at u1
  have nd := (hn cs _ _ _ u1).1 hcs
  obtain ⟨b1, b1'⟩ := List.getElem?_eq_some_iff.1 u2.symm
  have e3 : u[i % o.c]? = u[i' % o.c]? := by rw [← u2, ← v2]
  have := (List.getElem?_inj b1 nd).1 e3
  have q1 := Nat.div_add_mod i o.c
  have q2 := Nat.div_add_mod i' o.c
  rw [← hd, ← this] at q2
  omega

/-- Over several chunks they repeat: if more items are drawn than there are choices and nothing raises, some choice comes twice, although `replace=False`. -/
theorem choice_repeats [DecidableEq χ] (gen : Gen σ χ α χ) (hn : NoReplacement gen) (o : Obj σ) (hc : 0 < o.c) (k : Call χ α) (cs : List χ) (hk : k.method = .choice cs false none)
    (hg : Sequential (gen k.method)) (D : List (List (Row α))) (h : Rows o k D)
    (hok : ∀ j, j * o.c < o.sizes.sum → ∃ out, gen k.method (o.seedOf (o.drawn + j)) (chunk o.c D.flatten j) = .ok out) (hlt : cs.length < o.sizes.sum) :
    ∃ outs : List (List χ), (o.call gen k).2 = outs.map Res.ok ∧ ¬ outs.flatten.Nodup := by
  obtain ⟨outs, h1, h2, h3⟩ := call_values gen o hc k hg D h hok
  refine ⟨outs, h1, fun nd => ?_⟩
  have hsub : outs.flatten ⊆ cs := by
    intro x hx
    obtain ⟨i, hi, e⟩ := List.getElem_of_mem hx
    have hl : outs.flatten.length = o.sizes.sum := by rw [List.length_flatten, h2]
    obtain ⟨u, u1, u2⟩ := h3 i (by omega)
    rw [List.getElem?_eq_getElem hi, e] at u2
    rw [hk] at u1
    exact (hn cs _ _ _ u1).2 x (List.mem_of_getElem? u2.symm)
  have := (List.subperm_of_subset nd hsub).length_le
  rw [List.length_flatten, h2] at this
  omega

/-! ## Cases -/

/-- A sampler for cases: a choice without replacement takes the first elements, the others count from the seed. -/
def caseGen : Gen Nat Nat Nat Nat := fun m s rows => match m with
  | .choice cs false none => if rows.length ≤ cs.length then .ok (cs.take rows.length) else .error .valueError
  | _ => .ok ((List.range rows.length).map (s + ·))

def caseObj (sizes : List Nat) (c : Nat) : Obj Nat := create (fun i => 100 * i) sizes c

theorem caseGen_noReplacement : NoReplacement caseGen := by
  intro cs s rows out h
  unfold caseGen at h
  dsimp only at h
  split at h
  · cases h
    exact ⟨fun hn => hn.sublist (List.take_sublist _ _), fun x hx => List.mem_of_mem_take hx⟩
  · cases h

theorem caseGen_sequential (m : Method Nat) : Sequential (caseGen m) := by
  have plain : ∀ g : Nat → List (Row Nat) → Except Err (List Nat), (∀ s rows, g s rows = .ok ((List.range rows.length).map (s + ·))) → Sequential g := by
    intro g hg
    refine ⟨fun s rows out h => ?_, fun s xs ys out h => ?_⟩
    · rw [hg] at h; cases h; simp
    · rw [hg] at h ⊢; cases h
      rw [← List.map_take, List.take_range]; simp
  have ch : ∀ cs : List Nat, Sequential (caseGen (.choice cs false none)) := by
    intro cs
    refine ⟨fun s rows out h => ?_, fun s xs ys out h => ?_⟩
    · unfold caseGen at h
      dsimp only at h
      split at h
      · cases h; simp; omega
      · cases h
    · unfold caseGen at h ⊢
      dsimp only at h ⊢
      split at h
      · rename_i hl
        cases h
        rw [List.length_append] at hl
        rw [if_pos (by omega), List.take_take, List.length_append, Nat.min_eq_left (by omega)]
      · cases h
  cases m with
  | poisson => exact plain _ fun _ _ => rfl
  | normal => exact plain _ fun _ _ => rfl
  | uniform => exact plain _ fun _ _ => rfl
  | choice cs r p =>
    cases r with
    | true => exact plain _ fun _ _ => rfl
    | false =>
      cases p with
      | none => exact ch cs
      | some w => exact plain _ fun _ _ => rfl

/-- Three items in chunks of two: the first choice comes again. -/
example : ((caseObj [3] 2).call caseGen (⟨.choice [10, 20] false none, [], [[]]⟩ : Call Nat Nat)).2 = [.ok [10, 20, 10]] := by decide +kernel

/-- The same program on one rank and on three, the last without items. -/
example : (run caseGen (caseObj [3] 2) [(⟨.uniform, [], [[]]⟩ : Call Nat Nat), ⟨.normal, [], [[]]⟩]).2 = [[.ok [0, 1, 100]], [.ok [200, 201, 300]]]
    ∧ (run caseGen (caseObj [1, 2, 0] 2) [(⟨.uniform, [], [[], [], []]⟩ : Call Nat Nat), ⟨.normal, [], [[], [], []]⟩]).2
      = [[.ok [0], .ok [1, 100], .ok []], [.ok [200], .ok [201, 300], .ok []]] := by
  refine ⟨?_, ?_⟩ <;> decide +kernel

/-- Errors are not collective: the chunk fails only on the ranks that compute all of it, so some ranks return and others raise; on one rank the same call raises. -/
theorem errors_not_collective : ∃ (gen : Gen Nat Nat Nat Nat) (k₁ k₂ : Call Nat Nat),
    ((caseObj [4] 10).call gen k₁).2 = [.error .valueError] ∧ ((caseObj [2, 2] 10).call gen k₂).2 = [.ok [1, 2], .error .valueError] :=
  ⟨caseGen, ⟨.choice [1, 2, 3] false none, [], [[]]⟩, ⟨.choice [1, 2, 3] false none, [], [[], []]⟩, by decide +kernel, by decide +kernel⟩

/-- An argument of the wrong length on one rank: it raises and the other one waits for ever. -/
theorem wrong_length_hangs : ((caseObj [2, 2] 10).call caseGen (⟨.poisson, [], [[.array ⟨[2], fun _ => 1⟩], [.array ⟨[3], fun _ => 1⟩]]⟩ : Call Nat Nat)).2 = [.hang, .error .valueError] := by
  decide +kernel

/-- A rank with one item gives as many numbers as its argument has, here three. -/
theorem one_item_many : ((caseObj [1] 10).call caseGen (⟨.poisson, [], [[.array ⟨[3], fun _ => 1⟩]]⟩ : Call Nat Nat)).2 = [.ok [0, 1, 2]] := by
  decide +kernel

/-! ## Choices with probabilities -/

/-- The stream of numbers of the case: 0, 1/10, 6/10, 9/10, ... -/
def caseStream (i : Nat) : Nat × Nat := (([0, 1, 6, 9] : List Nat).getD i 9, 10)

/-- numpy's sampler for `choice(..., replace=False, p=w)` with this stream. -/
def weightedGen : Gen Nat Nat Nat Nat := fun m _ rows => match m with
  | .choice cs false (some w) => .ok ((weighted caseStream w rows.length 20 0 []).map fun i => cs.getD i 0)
  | _ => .error .valueError

/-- It does not meet the contract: the first two of three choices are not the two choices. -/
theorem weighted_not_sequential : ¬ Sequential (weightedGen (.choice [10, 20, 30] false (some [1, 1, 1]))) := by
  intro h
  have e := h.pre 0 [[], []] [[]] [10, 20, 30] (by decide +kernel)
  revert e
  decide +kernel

/-- So the choices depend on the division into ranks, and on two ranks one choice comes twice within one chunk. -/
theorem weighted_depends_on_ranks :
    ((caseObj [3] 10).call weightedGen (⟨.choice [10, 20, 30] false (some [1, 1, 1]), [], [[]]⟩ : Call Nat Nat)).2 = [.ok [10, 20, 30]]
    ∧ ((caseObj [2, 1] 10).call weightedGen (⟨.choice [10, 20, 30] false (some [1, 1, 1]), [], [[], []]⟩ : Call Nat Nat)).2 = [.ok [10, 30], .ok [30]] := by
  refine ⟨?_, ?_⟩ <;> decide +kernel

end NBK.RngObj
