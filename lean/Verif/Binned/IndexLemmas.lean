import Verif.Binned.Array
import Mathlib.Data.List.GetD
import Mathlib.Tactic.Ring
import Mathlib.Tactic.Linarith

/-!
# Positions in arrays in C order
-/
set_option linter.unusedSimpArgs false
namespace NBK.Binned

/-- The position of the element with index `js` in the C-ordered list of an array of the given shape. -/
def flat : List Nat → List Nat → Nat
  | n :: s, j :: js => j * s.prod + flat s js
  | _, _ => 0

/-- `js` is an index into an array of the given shape. -/
def Valid (shape js : List Nat) : Prop := js.length = shape.length ∧ ∀ i < shape.length, js.getD i 0 < shape.getD i 0

theorem Valid.nil : Valid [] [] := ⟨rfl, by simp⟩

theorem valid_cons (n j : Nat) (s js : List Nat) : Valid (n :: s) (j :: js) ↔ j < n ∧ Valid s js := by
  unfold Valid
  constructor
  · rintro ⟨h1, h2⟩
    refine ⟨by simpa using h2 0 (by simp), by simpa using h1, fun i hi => ?_⟩
    simpa using h2 (i + 1) (by simpa using hi)
  · rintro ⟨h0, h1, h2⟩
    refine ⟨by simpa using h1, fun i hi => ?_⟩
    cases i with
    | zero => simpa using h0
    | succ i => simpa using h2 i (by simpa using hi)

theorem valid_append (s1 s2 j1 j2 : List Nat) (h : j1.length = s1.length) : Valid (s1 ++ s2) (j1 ++ j2) ↔ Valid s1 j1 ∧ Valid s2 j2 := by
  induction s1 generalizing j1 with
  | nil =>
    obtain rfl : j1 = [] := List.length_eq_zero_iff.mp h
    simp [Valid.nil]
  | cons n s ih =>
    cases j1 with
    | nil => simp at h
    | cons j js =>
      rw [List.cons_append, List.cons_append, valid_cons, valid_cons, ih js (by simpa using h), and_assoc]

theorem flat_lt (shape js : List Nat) (h : Valid shape js) : flat shape js < shape.prod := by
  induction shape generalizing js with
  | nil =>
    obtain rfl : js = [] := List.length_eq_zero_iff.mp h.1
    simp [flat]
  | cons n s ih =>
    cases js with
    | nil => simp [Valid] at h
    | cons j js =>
      obtain ⟨h0, h1⟩ := (valid_cons _ _ _ _).mp h
      have := ih js h1
      simp only [flat, List.prod_cons]
      calc j * s.prod + flat s js < j * s.prod + s.prod := by omega
        _ = (j + 1) * s.prod := by ring
        _ ≤ n * s.prod := Nat.mul_le_mul_right _ h0

theorem flat_append (s1 s2 j1 j2 : List Nat) (h : j1.length = s1.length) :
    flat (s1 ++ s2) (j1 ++ j2) = flat s1 j1 * s2.prod + flat s2 j2 := by
  induction s1 generalizing j1 with
  | nil =>
    obtain rfl : j1 = [] := List.length_eq_zero_iff.mp h
    simp [flat]
  | cons n s ih =>
    cases j1 with
    | nil => simp at h
    | cons j js =>
      simp only [List.cons_append, flat, ih js (by simpa using h), List.prod_append]
      ring

/-- Every position is that of an index. -/
theorem exists_flat (shape : List Nat) (o : Nat) (h : o < shape.prod) : ∃ js, Valid shape js ∧ flat shape js = o := by
  induction shape generalizing o with
  | nil => exact ⟨[], Valid.nil, by simp at h; simp [flat, h]⟩
  | cons n s ih =>
    rw [List.prod_cons] at h
    have hs : 0 < s.prod := by
      rcases Nat.eq_zero_or_pos s.prod with e | e
      · rw [e] at h; simp at h
      · exact e
    obtain ⟨js, h1, h2⟩ := ih (o % s.prod) (Nat.mod_lt _ hs)
    refine ⟨o / s.prod :: js, (valid_cons _ _ _ _).mpr ⟨(Nat.div_lt_iff_lt_mul hs).mpr h, h1⟩, ?_⟩
    simp only [flat, h2]
    exact Nat.div_add_mod' o s.prod

theorem split_at {α : Type} (l : List α) (i : Nat) (h : i < l.length) : l = l.take i ++ l[i] :: l.drop (i + 1) := by
  rw [← List.drop_eq_getElem_cons h, List.take_append_drop]

theorem set_split (l : List Nat) (i x : Nat) (h : i < l.length) : l.set i x = l.take i ++ x :: l.drop (i + 1) :=
  List.set_eq_take_append_cons_drop.trans (if_pos h)

theorem valid_set (shape js : List Nat) (i m j : Nat) (h : Valid (shape.set i m) js) (n : Nat) (hn : shape[i]? = some n) (hj : j < n) :
    Valid shape (js.set i j) := by
  refine ⟨by simpa using h.1, fun k hk => ?_⟩
  have h2 := h.2 k (by simpa using hk)
  have hl := h.1
  rw [List.length_set] at hl
  rw [List.getD_eq_getElem?_getD, List.getD_eq_getElem?_getD] at h2 ⊢
  rw [List.getElem?_set] at h2 ⊢
  by_cases e : i = k
  · subst e
    have : shape[i] = n := by rw [List.getElem?_eq_getElem hk] at hn; exact Option.some.inj hn
    simp [hl, hk, this, hj]
  · simpa [e] using h2

/-- The element at an index of `numpy.take(a, idx, axis=i)`. -/
theorem takeAxis_get {α : Type} (d : α) (shape : List Nat) (i : Nat) (hi : i < shape.length) (idx : List Nat) (a : List α) (js : List Nat)
    (hv : Valid (shape.set i idx.length) js) :
    (takeAxis d shape i idx a)[flat (shape.set i idx.length) js]? = some (a.getD (flat shape (js.set i (idx.getD (js.getD i 0) 0))) d) := by
  have hjl : js.length = shape.length := by simpa using hv.1
  have hij : i < js.length := by omega
  have hji : js.getD i 0 = js[i] := by rw [List.getD_eq_getElem _ _ hij]
  have hlt := flat_lt _ _ hv
  have es := set_split shape i idx.length hi
  have ej := split_at js i hij
  have hp : (js.take i).length = (shape.take i).length := by simp; omega
  have hv' : Valid (shape.take i ++ idx.length :: shape.drop (i + 1)) (js.take i ++ js[i] :: js.drop (i + 1)) := by
    rw [← es, ← ej]; exact hv
  obtain ⟨v1, v2⟩ := (valid_append _ _ _ _ hp).mp hv'
  obtain ⟨v3, v4⟩ := (valid_cons _ _ _ _).mp v2
  have f1 := flat_lt _ _ v4
  have e1 : flat (shape.set i idx.length) js =
      (flat (shape.take i) (js.take i) * idx.length + js[i]) * (shape.drop (i + 1)).prod + flat (shape.drop (i + 1)) (js.drop (i + 1)) := by
    rw [es]
    conv => lhs; rw [ej]
    rw [flat_append _ _ _ _ hp]
    simp only [flat, List.prod_cons]
    ring
  have e2 : ∀ x, flat shape (js.set i x) =
      (flat (shape.take i) (js.take i) * shape[i] + x) * (shape.drop (i + 1)).prod + flat (shape.drop (i + 1)) (js.drop (i + 1)) := by
    intro x
    rw [set_split js i x hij]
    conv => lhs; rw [split_at shape i hi]
    rw [flat_append _ _ _ _ hp]
    simp only [flat, List.prod_cons]
    ring
  have e3 : (shape.set i idx.length).prod = (shape.take i).prod * idx.length * (shape.drop (i + 1)).prod := by
    rw [es, List.prod_append, List.prod_cons]; ring
  rw [e3] at hlt
  unfold takeAxis
  dsimp only
  rw [List.getElem?_map, List.getElem?_range hlt, Option.map_some, e1, e2, List.getD_eq_getElem shape 1 hi, hji]
  generalize (shape.drop (i + 1)).prod = post at *
  generalize flat (shape.drop (i + 1)) (js.drop (i + 1)) = q at *
  generalize flat (shape.take i) (js.take i) = p at *
  have hpost : 0 < post := by omega
  have hlen : 0 < idx.length := by omega
  have d1 : ((p * idx.length + js[i]) * post + q) / post = p * idx.length + js[i] := by
    rw [Nat.add_comm, Nat.add_mul_div_right _ _ hpost, Nat.div_eq_of_lt f1, Nat.zero_add]
  have d2 : ((p * idx.length + js[i]) * post + q) % post = q := by
    rw [Nat.add_comm, Nat.add_mul_mod_self_right, Nat.mod_eq_of_lt f1]
  have d3 : (p * idx.length + js[i]) / idx.length = p := by
    rw [Nat.add_comm, Nat.add_mul_div_right _ _ hlen, Nat.div_eq_of_lt v3, Nat.zero_add]
  have d4 : (p * idx.length + js[i]) % idx.length = js[i] := by
    rw [Nat.add_comm, Nat.add_mul_mod_self_right, Nat.mod_eq_of_lt v3]
  rw [d1, d2, d3, d4]

theorem takeAxis_length {α : Type} (d : α) (shape : List Nat) (i : Nat) (hi : i < shape.length) (idx : List Nat) (a : List α) :
    (takeAxis d shape i idx a).length = (shape.set i idx.length).prod := by
  rw [set_split _ _ _ hi, List.prod_append, List.prod_cons]
  simp [takeAxis, Nat.mul_assoc]

/-- The core of a reduction: blocks of `f` with stride `post`. -/
theorem reduceAxis_get (op : List Val → Val) (s1 s2 : List Nat) (f : Nat) (a : List Val) (j1 j2 : List Nat)
    (h1 : Valid s1 j1) (h2 : Valid s2 j2) :
    (reduceAxis op (s1 ++ f :: s2) s1.length a)[flat (s1 ++ s2) (j1 ++ j2)]? =
      some (op ((List.range f).map fun t => a.getD (flat (s1 ++ f :: s2) (j1 ++ t :: j2)) .nan)) := by
  have hl := flat_lt _ _ ((valid_append s1 s2 j1 j2 h1.1).mpr ⟨h1, h2⟩)
  have f2 := flat_lt _ _ h2
  unfold reduceAxis
  dsimp only
  have t1 : (s1 ++ f :: s2).take s1.length = s1 := by simp
  have t2 : (s1 ++ f :: s2).getD s1.length 1 = f := by simp [List.getD_eq_getElem?_getD]
  have t3 : (s1 ++ f :: s2).drop (s1.length + 1) = s2 := by simp [List.drop_append]
  rw [t1, t2, t3, List.getElem?_map, List.getElem?_range (by rw [List.prod_append] at hl; exact hl), Option.map_some]
  congr 2
  apply List.map_congr_left
  intro t _
  rw [flat_append _ _ _ _ h1.1, flat_append _ _ _ _ h1.1]
  simp only [flat, List.prod_cons]
  have hpost : 0 < s2.prod := by omega
  have d1 : (flat s1 j1 * s2.prod + flat s2 j2) / s2.prod = flat s1 j1 := by
    rw [Nat.add_comm, Nat.add_mul_div_right _ _ hpost, Nat.div_eq_of_lt f2, Nat.zero_add]
  have d2 : (flat s1 j1 * s2.prod + flat s2 j2) % s2.prod = flat s2 j2 := by
    rw [Nat.add_comm, Nat.add_mul_mod_self_right, Nat.mod_eq_of_lt f2]
  rw [d1, d2]
  congr 1
  ring

end NBK.Binned
