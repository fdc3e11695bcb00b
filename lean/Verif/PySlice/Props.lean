import Verif.PySlice.Basic
/-!
# What Python slices give, in terms of `take`, `drop` and `reverse` (C18)
-/
set_option linter.unusedSimpArgs false
namespace NBK.PySlice

/-- A bound of a slice counted from the start: negative ones from the end, none below the start. -/
def bound (n d : Nat) : Option Int → Nat
  | none => d
  | some (.ofNat i) => i
  | some (.negSucc i) => n - (i + 1)

/-- A bound of a slice that goes backwards: the position after it. -/
def after (n d : Nat) : Option Int → Nat
  | none => d
  | some (.ofNat i) => i + 1
  | some (.negSucc i) => n - i

theorem row_pos {α : Type} (l : List α) (s : Slice) (a b c : Int) (h : indices l.length s = some (a, b, c)) :
    ∃ r, pySlice l s = some r ∧ ∀ k : Nat, r[k]? = ((walk a b c)[k]?).bind fun p => l[p.toNat]? := by
  refine ⟨rowsAt l (walk a b c), by unfold pySlice; rw [h]; rfl, ?_⟩
  intro k
  have hv := rowsAt_valid l (walk a b c) (fun p hp => walk_valid _ _ _ _ _ h p hp)
  have := congrArg (fun x => x[k]?) hv
  rw [List.getElem?_map, List.getElem?_map] at this
  cases hr : (rowsAt l (walk a b c))[k]? with
  | none =>
    rw [hr] at this
    cases hw : (walk a b c)[k]? with
    | none => rfl
    | some p => rw [hw] at this; cases this
  | some x =>
    rw [hr] at this
    cases hw : (walk a b c)[k]? with
    | none => rw [hw] at this; cases this
    | some p =>
      rw [hw] at this
      simp only [Option.map_some, Option.some.injEq] at this
      exact this

/-- C18: `l[a:b:c]` with a positive step: every `c`-th element of the part of the list between the bounds. -/
theorem slice_forward {α : Type} (l : List α) (a b : Option Int) (c : Option Int) (h : 0 < c.getD 1) :
    ∃ r, pySlice l ⟨a, b, c⟩ = some r ∧ ∀ k : Nat, r[k]? = ((l.take (bound l.length l.length b)).drop (bound l.length 0 a))[k * (c.getD 1).toNat]? := by
  obtain ⟨x, y, hi, hx, hy⟩ : ∃ x y : Int, indices l.length ⟨a, b, c⟩ = some (x, y, c.getD 1) ∧ x = min (bound l.length 0 a) l.length ∧
      y = min (bound l.length l.length b) l.length := by
    have h0 : c.getD 1 ≠ 0 := by omega
    have hn : ¬ c.getD 1 < 0 := by omega
    refine ⟨_, _, by simp only [indices]; rw [if_neg h0], ?_, ?_⟩
    · cases a with
      | none => simp [hn, bound]
      | some i =>
        cases i with
        | ofNat i =>
          simp only [clip, bound, hn, decide_false, Int.ofNat_eq_natCast]
          have : ¬ ((i : Int) < 0) := by omega
          simp only [this, if_false]
          split <;> simp <;> omega
        | negSucc i =>
          simp only [clip, bound, hn, decide_false]
          have : Int.negSucc i < 0 := Int.negSucc_lt_zero i
          rw [if_pos this]
          have e : Int.negSucc i = -((i : Int) + 1) := Int.negSucc_eq i
          rw [e]
          split <;> simp <;> omega
    · cases b with
      | none => simp [hn, bound]
      | some i =>
        cases i with
        | ofNat i =>
          simp only [clip, bound, hn, decide_false, Int.ofNat_eq_natCast]
          have : ¬ ((i : Int) < 0) := by omega
          simp only [this, if_false]
          split <;> simp <;> omega
        | negSucc i =>
          simp only [clip, bound, hn, decide_false]
          have : Int.negSucc i < 0 := Int.negSucc_lt_zero i
          rw [if_pos this]
          have e : Int.negSucc i = -((i : Int) + 1) := Int.negSucc_eq i
          rw [e]
          split <;> simp <;> omega
  obtain ⟨r, hr, hk⟩ := row_pos l _ x y _ hi
  refine ⟨r, hr, fun k => ?_⟩
  rw [hk k, walk_get_pos x y _ h, List.getElem?_drop, List.getElem?_take]
  generalize hA : bound l.length 0 a = A at *
  generalize hB : bound l.length l.length b = B at *
  obtain ⟨m, hm⟩ : ∃ m : Nat, c.getD 1 = m := ⟨(c.getD 1).toNat, by omega⟩
  rw [hm]
  have hm' : (m : Int).toNat = m := Int.toNat_natCast m
  rw [hm']
  have hcast : (k : Int) * (m : Int) = ((k * m : Nat) : Int) := by push_cast; ring
  rw [hcast]
  generalize k * m = j
  by_cases hc : x + (j : Int) < y
  · rw [if_pos hc, Option.bind_some, if_pos (by omega)]
    by_cases hAl : A ≤ l.length
    · have : (x + (j : Int)).toNat = A + j := by omega
      rw [this]
    · omega
  · rw [if_neg hc]
    by_cases hB2 : A + j < B
    · rw [if_pos hB2, List.getElem?_eq_none (by omega)]
      rfl
    · rw [if_neg hB2]
      rfl

/-- C18: `l[a:b:c]` with a negative step: from the end, the elements after `b` up to `a`. -/
theorem slice_backward {α : Type} (l : List α) (a b : Option Int) (c : Int) (h : c < 0) :
    ∃ r, pySlice l ⟨a, b, some c⟩ = some r ∧
      ∀ k : Nat, r[k]? = ((l.take (after l.length l.length a)).drop (after l.length 0 b)).reverse[k * (-c).toNat]? := by
  obtain ⟨x, y, hi, hx, hy⟩ : ∃ x y : Int, indices l.length ⟨a, b, some c⟩ = some (x, y, c) ∧ x + 1 = min (after l.length l.length a) l.length ∧
      y + 1 = min (after l.length 0 b) l.length := by
    have h0 : c ≠ 0 := by omega
    refine ⟨_, _, by simp only [indices, Option.getD_some]; rw [if_neg h0], ?_, ?_⟩
    · cases a with
      | none => simp [h, after]
      | some i =>
        cases i with
        | ofNat i =>
          simp only [clip, after, h, decide_true, Int.ofNat_eq_natCast]
          have : ¬ ((i : Int) < 0) := by omega
          simp only [this, if_false]
          split <;> simp <;> omega
        | negSucc i =>
          simp only [clip, after, h, decide_true]
          have : Int.negSucc i < 0 := Int.negSucc_lt_zero i
          rw [if_pos this]
          have e : Int.negSucc i = -((i : Int) + 1) := Int.negSucc_eq i
          rw [e]
          split <;> simp <;> omega
    · cases b with
      | none => simp [h, after]
      | some i =>
        cases i with
        | ofNat i =>
          simp only [clip, after, h, decide_true, Int.ofNat_eq_natCast]
          have : ¬ ((i : Int) < 0) := by omega
          simp only [this, if_false]
          split <;> simp <;> omega
        | negSucc i =>
          simp only [clip, after, h, decide_true]
          have : Int.negSucc i < 0 := Int.negSucc_lt_zero i
          rw [if_pos this]
          have e : Int.negSucc i = -((i : Int) + 1) := Int.negSucc_eq i
          rw [e]
          split <;> simp <;> omega
  obtain ⟨r, hr, hk⟩ := row_pos l _ x y _ hi
  refine ⟨r, hr, fun k => ?_⟩
  rw [hk k, walk_get_neg x y _ h]
  generalize hA : after l.length l.length a = A at *
  generalize hB : after l.length 0 b = B at *
  obtain ⟨m, hm⟩ : ∃ m : Nat, -c = m := ⟨(-c).toNat, by omega⟩
  have hc' : c = -(m : Int) := by omega
  rw [hm, hc']
  have hm' : (m : Int).toNat = m := Int.toNat_natCast m
  rw [hm']
  have hcast : x + (k : Int) * -(m : Int) = x - ((k * m : Nat) : Int) := by push_cast; ring
  rw [hcast]
  generalize k * m = j
  by_cases hc : y < x - (j : Int)
  · rw [if_pos hc, Option.bind_some]
    have hlen : ((l.take A).drop B).length = min A l.length - B := by simp
    rw [List.getElem?_reverse (by rw [hlen]; omega), hlen, List.getElem?_drop, List.getElem?_take, if_pos (by omega)]
    congr 1
    omega
  · rw [if_neg hc, List.getElem?_eq_none]
    · rfl
    · simp
      omega

/-- C18: with step one the slice is the part between the bounds; `l[::-1]` is the list reversed; a step of zero is refused. -/
theorem slice_special {α : Type} (l : List α) (a b : Option Int) :
    pySlice l ⟨a, b, none⟩ = some ((l.take (bound l.length l.length b)).drop (bound l.length 0 a)) ∧ pySlice l ⟨none, none, some (-1)⟩ = some l.reverse ∧
    pySlice l ⟨a, b, some 0⟩ = none := by
  refine ⟨?_, ?_, rfl⟩
  · obtain ⟨r, hr, hk⟩ := slice_forward l a b none (by decide)
    rw [hr]
    congr 1
    refine List.ext_getElem? fun k => ?_
    rw [hk k]
    simp
  · obtain ⟨r, hr, hk⟩ := slice_backward l none none (-1) (by decide)
    rw [hr]
    congr 1
    refine List.ext_getElem? fun k => ?_
    rw [hk k]
    simp [after]

/-- Cases: negative bounds, bounds outside, steps. -/
theorem slice_cases : pySlice [0, 1, 2, 3, 4] ⟨some (-2), none, none⟩ = some [3, 4] ∧ pySlice [0, 1, 2, 3, 4] ⟨some (-9), some (-1), some 2⟩ = some [0, 2] ∧
    pySlice [0, 1, 2, 3, 4] ⟨some 9, some 0, some (-2)⟩ = some [4, 2] ∧ pySlice [0, 1, 2, 3, 4] ⟨some (-2), some (-9), some (-1)⟩ = some [3, 2, 1, 0] := by
  refine ⟨?_, ?_, ?_, ?_⟩ <;> decide +kernel

end NBK.PySlice
