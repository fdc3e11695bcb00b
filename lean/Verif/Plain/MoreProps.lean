import Verif.Plain.CaseProps
set_option linter.unusedSimpArgs false
/-!
# C115: slices, names by default and unknown types
-/
namespace NBK.Plain
variable {F V : Type}

/-- C115: `lines[a:b]` with bounds inside the list, also when they are counted from the end. -/
theorem slice_spec {α : Type} (l : List α) (a b : Nat) (h : a ≤ b) (hb : b < l.length) :
    slice l a b = (l.drop a).take (b - a) ∧ slice l ((a : Int) - l.length) ((b : Int) - l.length) = (l.drop a).take (b - a) ∧
    slice l a ((b : Int) - l.length) = (l.drop a).take (b - a) := by
  have c1 : ∀ x : Nat, x < l.length → clip l.length (x : Int) = x := fun x hx => by
    unfold clip
    rw [if_neg (by omega)]
    omega
  have c2 : ∀ x : Nat, x < l.length → clip l.length ((x : Int) - l.length) = x := fun x hx => by
    unfold clip
    rw [if_pos (by omega)]
    omega
  have key : (l.take b).drop a = (l.drop a).take (b - a) := by rw [List.drop_take]
  refine ⟨?_, ?_, ?_⟩
  · rw [slice, c1 a (by omega), c1 b hb, key]
  · rw [slice, c2 a (by omega), c2 b hb, key]
  · rw [slice, c1 a (by omega), c2 b hb, key]

/-- C115: a type that is neither a builtin nor in numpy stops the reader with a TypeError, which `from_plaintext` reports as a ValueError. -/
theorem unknown_type (p : Prims F V) (l : List Char) (m : Dict (MV F V)) (t : Tok) (ht : (splitWs l).getLast? = some t)
    (h1 : p.builtin t = none) (h2 : p.numpy t = none) : metaLine p l m = .error .typeError := by
  unfold metaLine
  dsimp only
  rw [ht]
  dsimp only
  rw [h1]
  dsimp only
  rw [h2]

/-- C115: a metadata line that is accepted has at least two fields and a known type, and sets just the entry it names. -/
theorem metaLine_ok (p : Prims F V) (l : List Char) (m m' : Dict (MV F V)) (h : metaLine p l m = .ok m') :
    ∃ k s t v, (splitWs l)[0]? = some k ∧ (splitWs l)[1]? = some s ∧ (splitWs l).getLast? = some t ∧
      ((∃ f, p.builtin t = some f ∧ f s = some v) ∨ (p.builtin t = none ∧ ∃ f, p.numpy t = some f ∧ f s = some v)) ∧
      get k m' = some (.val v) ∧ ∀ x, x ≠ k → get x m' = get x m := by
  unfold metaLine at h
  dsimp only at h
  cases ht : (splitWs l).getLast? with
  | none => rw [ht] at h; cases h
  | some t =>
    rw [ht] at h
    dsimp only at h
    cases hk : (splitWs l)[0]? with
    | none =>
      rw [hk] at h
      cases hb : p.builtin t with
      | some f => rw [hb] at h; cases h
      | none =>
        rw [hb] at h
        cases hn : p.numpy t with
        | some f => simp only [hn] at h; cases h
        | none => simp only [hn] at h; cases h
    | some k =>
      rw [hk] at h
      cases hs : (splitWs l)[1]? with
      | none =>
        rw [hs] at h
        cases hb : p.builtin t with
        | some f => rw [hb] at h; cases h
        | none =>
          rw [hb] at h
          cases hn : p.numpy t with
          | some f => simp only [hn] at h; cases h
          | none => simp only [hn] at h; cases h
      | some s =>
        rw [hs] at h
        have fin : ∀ v, put k (.val v) m = m' → get k m' = some (.val v) ∧ ∀ x, x ≠ k → get x m' = get x m := by
          rintro v rfl
          refine ⟨by rw [get_put, if_pos rfl], fun x hx => by rw [get_put, if_neg (Ne.symm hx)]⟩
        cases hb : p.builtin t with
        | some f =>
          simp only [hb] at h
          cases hv : f s with
          | none => rw [hv] at h; cases h
          | some v =>
            rw [hv] at h
            injection h with h
            exact ⟨k, s, t, v, rfl, rfl, rfl, Or.inl ⟨f, hb, hv⟩, fin v h⟩
        | none =>
          simp only [hb] at h
          cases hn : p.numpy t with
          | none => simp only [hn] at h; cases h
          | some f =>
            simp only [hn] at h
            cases hv : f s with
            | none => rw [hv] at h; cases h
            | some v =>
              rw [hv] at h
              injection h with h
              exact ⟨k, s, t, v, rfl, rfl, rfl, Or.inr ⟨hb, f, hn, hv⟩, fin v h⟩

theorem cut_all {α : Type} (n d : Nat) (flat : List α) (h : flat.length = n * d) :
    ((List.range n).map fun r => (flat.drop (r * d)).take d).flatten = flat ∧ ∀ r < n, ((flat.drop (r * d)).take d).length = d := by
  induction n generalizing flat with
  | zero => exact ⟨by simpa using (List.length_eq_zero_iff.mp (by simpa using h)).symm, fun r hr => by omega⟩
  | succ n ih =>
    have hd : (flat.drop d).length = n * d := by rw [List.length_drop, h, Nat.succ_mul]; omega
    obtain ⟨i1, i2⟩ := ih (flat.drop d) hd
    constructor
    · rw [List.range_succ_eq_map, List.map_cons, List.flatten_cons, List.map_map]
      have : ((fun r => (flat.drop (r * d)).take d) ∘ Nat.succ) = fun r => ((flat.drop d).drop (r * d)).take d := by
        funext r
        simp [List.drop_drop, Nat.succ_mul, Nat.add_comm]
      rw [this, i1]
      simp
    · intro r hr
      cases r with
      | zero =>
        simp only [Nat.zero_mul, List.drop_zero, List.length_take, h, Nat.succ_mul]
        omega
      | succ r =>
        have := i2 r (by omega)
        rw [List.drop_drop] at this
        rw [show (r + 1) * d = d + r * d by rw [Nat.succ_mul]; omega]
        exact this

/-- C115: the numbers of a file of two dimensions are accepted only if they fill the grid; then they are the rows one after the other, all of one
length. -/
theorem reshape_ok (nk nmu : Int) (flat : List F) (rows : List (List F)) (h : reshape nk nmu flat = .ok rows) :
    0 < nk ∧ 0 < nmu ∧ (rows.length : Int) = nk * nmu ∧ rows.flatten = flat ∧ ∃ d, ∀ r ∈ rows, r.length = d := by
  unfold reshape at h
  split at h
  · rename_i hp
    dsimp only at h
    split at h
    · rename_i hm
      injection h with h
      subst h
      have hlen : flat.length = (nk * nmu).toNat * (flat.length / (nk * nmu).toNat) := (Nat.mul_div_cancel' (Nat.dvd_of_mod_eq_zero hm)).symm
      obtain ⟨h1, h2⟩ := cut_all _ _ flat hlen
      refine ⟨hp.1, hp.2, ?_, h1, flat.length / (nk * nmu).toNat, ?_⟩
      · rw [List.length_map, List.length_range]
        exact Int.toNat_of_nonneg (le_of_lt (mul_pos hp.1 hp.2))
      · intro r hr
        obtain ⟨k, hk, rfl⟩ := List.mem_map.mp hr
        exact h2 k (List.mem_range.mp hk)
    · cases h
  · cases h

/-- Without names in the first line the columns are `col_0`, `col_1`, and so on; an unknown type of metadata is a ValueError. -/
theorem default_names :
    fromPlaintext prims 9 true [['k']] ["5 6\n".toList, "# edges 2\n".toList, "# 0\n".toList, "# 9\n".toList] [] =
      some (.ok ⟨[['k']], [[0, 9]], ⟨[1], [("col_0".toList, .real [5]), ("col_1".toList, .real [6])]⟩, none, none, []⟩) ∧
    fromPlaintext prims 9 true [['k']] ["# k\n".toList, "5\n".toList, "# edges 2\n".toList, "# 0\n".toList, "# 9\n".toList,
      "# metadata 1\n".toList, "# x 1 nothing\n".toList] [] = some (.error .valueError) := by
  refine ⟨?_, ?_⟩ <;> decide +kernel

end NBK.Plain
