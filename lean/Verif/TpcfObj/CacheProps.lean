import Verif.TpcfObj.Cache
import Verif.TpcfObj.Lemmas
import Mathlib.Data.List.Nodup

set_option linter.unusedSimpArgs false

/-! C118: the table of harmonics is complete on any number of ranks, and the cached powers are the powers. -/
namespace NBK.TpcfObj

/-! ### The pairs `(l, m)` -/

theorem strided_eq (r size n : Nat) (h : r < size) : strided r size n = (List.range n).filter fun i => i % size = r := by
  unfold strided
  apply List.filter_congr
  intro i _
  rw [Bool.eq_iff_iff]
  simp only [Bool.and_eq_true, decide_eq_true_eq, beq_iff_eq]
  constructor
  · rintro ⟨h1, h2⟩
    obtain ⟨k, hk⟩ := Nat.dvd_of_mod_eq_zero h2
    have : i = r + size * k := by omega
    rw [this, Nat.add_mul_mod_self_left, Nat.mod_eq_of_lt h]
  · intro h1
    have h2 : r ≤ i := h1 ▸ Nat.mod_le i size
    refine ⟨h2, ?_⟩
    have := Nat.div_add_mod i size
    rw [h1] at this
    have : i - r = size * (i / size) := by omega
    rw [this, Nat.mul_mod_right]

theorem filterMap_flatMap_comm {α β : Type} (g : Nat → List α) (h : α → Option β) (l : List Nat) :
    (l.flatMap fun r => (g r).filterMap h) = (l.flatMap g).filterMap h := by
  induction l with
  | nil => rfl
  | cons a l ih => simp [List.flatMap_cons, ih]

theorem filterMap_range {α : Type} (xs : List α) : ((List.range xs.length).filterMap fun i => xs[i]?) = xs := by
  induction xs with
  | nil => rfl
  | cons a xs ih =>
    rw [List.length_cons, List.range_succ_eq_map, List.filterMap_cons]
    simp only [List.getElem?_cons_zero, List.filterMap_map, Function.comp_def, List.getElem?_cons_succ]
    rw [ih]

/-- C118: the work on the expressions is complete and done once, whatever the number of ranks. -/
theorem gathered_perm {α : Type} (xs : List α) (size : Nat) (h : 0 < size) : (gathered xs size).Perm xs := by
  have e : gathered xs size = ((List.range size).flatMap fun r => (List.range xs.length).filter fun i => i % size = r).filterMap
      fun i => xs[i]? := by
    rw [← filterMap_flatMap_comm]
    unfold gathered share
    rw [List.flatMap_def, List.flatMap_def]
    congr 1
    apply List.map_congr_left
    intro r hr
    rw [strided_eq r size _ (List.mem_range.mp hr)]
  rw [e]
  refine ((partition_perm (fun i => i % size) size _ fun i _ => Nat.mod_lt _ h).filterMap _).trans ?_
  rw [filterMap_range]

theorem mem_lms (ells : List Nat) (l m : Nat) : (l, m) ∈ lms ells ↔ l ∈ ells ∧ m ≤ l := by
  unfold lms
  simp only [List.mem_flatMap, List.mem_map, List.mem_range, Prod.mk.injEq]
  constructor
  · rintro ⟨a, ha, b, hb, rfl, rfl⟩; exact ⟨ha, by omega⟩
  · rintro ⟨h1, h2⟩; exact ⟨l, h1, m, by omega, rfl, rfl⟩

theorem lms_nodup (ells : List Nat) (h : ells.Nodup) : (lms ells).Nodup := by
  induction ells with
  | nil => exact List.nodup_nil
  | cons a ells ih =>
    rw [List.nodup_cons] at h
    have : lms (a :: ells) = ((List.range (a + 1)).map fun m => (a, m)) ++ lms ells := rfl
    rw [this, List.nodup_append]
    refine ⟨?_, ih h.2, ?_⟩
    · exact List.nodup_range.map (fun x y hxy => (Prod.mk.inj hxy).2)
    · rintro x hx y hy rfl
      obtain ⟨m, _, rfl⟩ := List.mem_map.mp hx
      exact h.1 ((mem_lms ells a m).mp hy).1

/-- C118: the index of a multipole is its place in the list. -/
theorem iell_spec (ells : List Nat) (h : ells.Nodup) (i l : Nat) (hi : ells[i]? = some l) : iell ells l = some i := by
  have key : ∀ (xs : List Nat) (k : Nat) (t : Nat → Option Nat), xs.Nodup →
      (∀ x, x ∉ xs → ((xs.zipIdx k).foldl (fun t p => fun l => if l = p.1 then some p.2 else t l) t) x = t x) ∧
      ∀ j x, xs[j]? = some x → ((xs.zipIdx k).foldl (fun t p => fun l => if l = p.1 then some p.2 else t l) t) x = some (k + j) := by
    intro xs
    induction xs with
    | nil => intro k t _; exact ⟨fun _ _ => rfl, fun j x hx => by simp at hx⟩
    | cons a xs ih =>
      intro k t hn
      rw [List.nodup_cons] at hn
      obtain ⟨h1, h2⟩ := ih (k + 1) (fun l => if l = a then some k else t l) hn.2
      refine ⟨?_, ?_⟩
      · intro x hx
        simp only [List.mem_cons, not_or] at hx
        rw [List.zipIdx_cons, List.foldl_cons, h1 x hx.2, if_neg hx.1]
      · intro j x hx
        rw [List.zipIdx_cons, List.foldl_cons]
        cases j with
        | zero =>
          simp only [List.getElem?_cons_zero, Option.some.injEq] at hx
          subst hx
          rw [h1 a hn.1, if_pos rfl, Nat.add_zero]
        | succ j =>
          rw [List.getElem?_cons_succ] at hx
          rw [h2 j x hx]
          congr 1; omega
  have := (key ells 0 (fun _ => none) h).2 i l hi
  rw [Nat.zero_add] at this
  exact this

/-! ### Powers -/

variable {R : Type} [CommRing R]

theorem fillStep_apply (v : Var) (x : R) (c : Cache R) (i : Nat) (v' : Var) (e : Nat) :
    fillStep v x c i v' e = if v' = v ∧ e = i then (c v (i - 1)).map (· * x) else c v' e := rfl

theorem fill_one (v : Var) (x : R) (c : Cache R) (h : c v 2 = some (x ^ 2)) (n : Nat) :
    let c' := ((List.range (n + 1)).filter fun i => 3 ≤ i).foldl (fillStep v x) c
    (∀ e, 2 ≤ e → e ≤ max 2 n → c' v e = some (x ^ e)) ∧ ∀ v', v' ≠ v → ∀ e, c' v' e = c v' e := by
  induction n with
  | zero =>
    refine ⟨fun e h1 h2 => ?_, fun _ _ _ => rfl⟩
    have : e = 2 := by simp at h2; omega
    subst this
    exact h
  | succ n ih =>
    dsimp only at ih ⊢
    obtain ⟨h1, h2⟩ := ih
    rw [List.range_succ, List.filter_append, List.foldl_append]
    by_cases hn : 3 ≤ n + 1
    · rw [List.filter_cons_of_pos (by simpa using hn), List.filter_nil, List.foldl_cons, List.foldl_nil]
      refine ⟨?_, ?_⟩
      · intro e he1 he2
        rw [fillStep_apply]
        by_cases hen : e = n + 1
        · subst hen
          rw [if_pos ⟨rfl, rfl⟩, Nat.add_sub_cancel, h1 n (by omega) (by omega), Option.map_some, pow_succ]
        · rw [if_neg (fun hh => hen hh.2)]
          exact h1 e he1 (by omega)
      · intro v' hv e
        rw [fillStep_apply]
        rw [if_neg (fun hh => hv hh.1)]
        exact h2 v' hv e
    · rw [List.filter_cons_of_neg (by simpa using hn), List.filter_nil, List.foldl_nil]
      exact ⟨fun e he1 he2 => h1 e he1 (by omega), h2⟩

/-- C118: after filling, the cache holds the powers of the arguments, whatever an earlier call left in it. -/
theorem fill_spec (maxEll : Nat) (xpy z : R) (c : Cache R) (e : Nat) (h2 : 2 ≤ e) (he : e ≤ max 2 maxEll) :
    fill maxEll xpy z c .xpy e = some (xpy ^ e) ∧ fill maxEll xpy z c .z e = some (z ^ e) := by
  unfold fill
  have a := fill_one .xpy xpy ((c.set .xpy 2 (some (xpy * xpy))).set .z 2 (some (z * z)))
    (by simp [Cache.set, pow_two]) maxEll
  dsimp only at a
  have b := fill_one .z z (((List.range (maxEll + 1)).filter fun i => 3 ≤ i).foldl (fillStep .xpy xpy)
    ((c.set .xpy 2 (some (xpy * xpy))).set .z 2 (some (z * z))))
    (by rw [a.2 .z (by decide)]; simp [Cache.set, pow_two]) maxEll
  dsimp only at b
  refine ⟨?_, b.1 e h2 he⟩
  rw [b.2 .xpy (by decide)]
  exact a.1 e h2 he

/-- The value of an expression without a cache. -/
def poly (xpy z : R) (ts : List (Term R)) : R := (ts.map fun t => t.c * xpy ^ t.a * z ^ t.b).sum

theorem power_spec (maxEll : Nat) (rep : Var → Nat → Bool) (xpy z : R) (c : Cache R) (e : Nat) :
    power maxEll rep (fill maxEll xpy z c) .xpy xpy e = .ok (xpy ^ e) ∧ power maxEll rep (fill maxEll xpy z c) .z z e = .ok (z ^ e) := by
  unfold power
  constructor
  · by_cases h : (decide (2 ≤ e) && decide (e ≤ maxEll) && rep .xpy e) = true
    · rw [if_pos h]
      simp only [Bool.and_eq_true, decide_eq_true_eq] at h
      rw [(fill_spec maxEll xpy z c e h.1.1 (by omega)).1]
    · rw [if_neg h]
  · by_cases h : (decide (2 ≤ e) && decide (e ≤ maxEll) && rep .z e) = true
    · rw [if_pos h]
      simp only [Bool.and_eq_true, decide_eq_true_eq] at h
      rw [(fill_spec maxEll xpy z c e h.1.1 (by omega)).2]
    · rw [if_neg h]

/-- C118: an expression with look-ups has the value of the polynomial, whichever powers were replaced. -/
theorem eval_spec (maxEll : Nat) (rep : Var → Nat → Bool) (xpy z : R) (c : Cache R) (ts : List (Term R)) :
    evalExpr maxEll rep (fill maxEll xpy z c) xpy z ts = .ok (poly xpy z ts) := by
  induction ts with
  | nil => rfl
  | cons t ts ih =>
    unfold evalExpr
    rw [(power_spec maxEll rep xpy z c t.a).1, (power_spec maxEll rep xpy z c t.b).2, ih]
    simp [poly]

theorem put_new {α β : Type} [DecidableEq α] (d : List (α × β)) (k : α) (v : β) (h : k ∉ d.map (·.1)) : put d k v = d ++ [(k, v)] := by
  unfold put
  rw [if_neg]
  intro hc
  obtain ⟨p, hp, e⟩ := List.any_eq_true.mp hc
  exact h (List.mem_map.mpr ⟨p, hp, by simpa using e⟩)

theorem foldl_put {α β : Type} [DecidableEq α] (g : α → β) (ks : List α) (d : List (α × β)) (hn : ks.Nodup)
    (hd : ∀ k ∈ ks, k ∉ d.map (·.1)) : ks.foldl (fun d k => put d k (g k)) d = d ++ ks.map fun k => (k, g k) := by
  induction ks generalizing d with
  | nil => simp
  | cons k ks ih =>
    rw [List.nodup_cons] at hn
    rw [List.foldl_cons, put_new d k (g k) (hd k (by simp)), ih _ hn.2]
    · simp
    · intro k' hk'
      simp only [List.map_append, List.map_cons, List.map_nil, List.mem_append, List.mem_singleton, not_or]
      exact ⟨hd k' (by simp [hk']), fun e => hn.1 (e ▸ hk')⟩

theorem evalAll_spec (maxEll : Nat) (rep : Nat × Nat → Var → Nat → Bool) (xpy z : R) (c : Cache R) (l : List ((Nat × Nat) × List (Term R))) :
    evalAll maxEll rep (fill maxEll xpy z c) xpy z l = .ok (l.map fun x => (x.1, poly xpy z x.2)) := by
  induction l with
  | nil => rfl
  | cons x l ih =>
    unfold evalAll
    rw [eval_spec, ih]
    rfl

/-- **C118** for the harmonics: a table for distinct multipoles, made on any number of ranks, holds every `(l, m)` with
`0 <= m <= l` once; a call gives the values of the expressions, whatever earlier calls left in the cache and whichever powers are looked up. -/
theorem call_spec (expr : Nat × Nat → List (Term R)) (size : Nat) (hs : 0 < size) (ells : List Nat) (hne : ells ≠ []) (hn : ells.Nodup) :
    ∃ tab, table expr size ells = .ok tab ∧ ∀ (rep : Nat × Nat → Var → Nat → Bool) (c : Cache R) (xpy z : R),
      ∃ vals, (call tab rep c xpy z).1 = .ok vals ∧ (vals.map (·.1)).Perm (lms ells) ∧
        ∀ l m, l ∈ ells → m ≤ l → ((l, m), poly xpy z (expr (l, m))) ∈ vals := by
  have hp := gathered_perm (lms ells) size hs
  have hnd : (gathered (lms ells) size).Nodup := hp.nodup_iff.mpr (lms_nodup ells hn)
  have hmax : ∃ m, ells.max? = some m := by
    cases h : ells.max? with
    | none => exact absurd (List.max?_eq_none_iff.mp h) hne
    | some m => exact ⟨m, rfl⟩
  obtain ⟨mx, hmx⟩ := hmax
  refine ⟨(mx, (gathered (lms ells) size).map fun lm => (lm, expr lm)), ?_, ?_⟩
  · unfold table
    rw [hmx]
    dsimp only
    rw [foldl_put expr _ [] hnd (by simp), List.nil_append]
  · intro rep c xpy z
    refine ⟨_, evalAll_spec mx rep xpy z c _, ?_, ?_⟩
    · simp only [List.map_map, Function.comp_def, List.map_id']
      exact hp
    · intro l m hl hm
      simp only [List.map_map, List.mem_map, Function.comp_apply]
      exact ⟨(l, m), hp.mem_iff.mpr ((mem_lms ells l m).mpr ⟨hl, hm⟩), rfl⟩

/-- No multipoles are refused. -/
theorem table_empty (expr : Nat × Nat → List (Term R)) (size : Nat) : table expr size [] = .error .valueError := rfl

/-- The pairs are those of the sum over the harmonics. -/
example (poles : List Nat) : lms poles = poles.flatMap fun l => (List.range (l + 1)).map fun m => (l, m) := rfl

/-- The hypotheses of `call_spec` are met: three multipoles on two ranks. -/
example : gathered (lms [0, 2]) 2 = [(0, 0), (2, 1), (2, 0), (2, 2)] ∧ ([0, 2] : List Nat).Nodup ∧
    iell [0, 2] 2 = some 1 ∧ iell [0, 2] 1 = none := by decide

/-- A value from look-ups: `3 z^4 + x^2` at `x = 2`, `z = 3`, with the powers of another call left in the cache. -/
example : evalExpr 4 (fun _ _ => true) (fill 4 (2 : Int) 3 (fun _ _ => some 77)) 2 3 [⟨3, 0, 4⟩, ⟨1, 2, 0⟩] = .ok 247 := by rfl

end NBK.TpcfObj
