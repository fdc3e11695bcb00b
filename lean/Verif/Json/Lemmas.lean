import Verif.Json.Model
import Mathlib.Tactic.Ring

set_option linter.unusedSimpArgs false

/-! Lemmas on nested lists. -/
namespace NBK.Json

theorem mapM_of {α β : Type} {f : α → Except Err β} {g : α → β} {l : List α} (h : ∀ a ∈ l, f a = .ok (g a)) :
    l.mapM f = .ok (l.map g) := by
  induction l with
  | nil => rfl
  | cons a l ih =>
    rw [List.mapM_cons, h a (by simp), ih fun x hx => h x (by simp [hx])]
    rfl

theorem decL_map {α : Type} {f : α → J} {g : α → V} {l : List α} (h : ∀ a ∈ l, dec (f a) = .ok (g a)) :
    decL (l.map f) = .ok (l.map g) := by
  induction l with
  | nil => rfl
  | cons a l ih =>
    rw [List.map_cons, decL, h a (by simp), ih fun x hx => h x (by simp [hx])]
    rfl

/-- Nested lists of values. -/
def nestV : List Nat → List V → V
  | [], xs => xs.headD .none
  | n :: sh, xs => .list ((List.range n).map fun i => nestV sh ((xs.drop (i * size sh)).take (size sh)))

theorem chunk_length {α : Type} (xs : List α) (n m i : Nat) (h : xs.length = n * m) (hi : i < n) :
    ((xs.drop (i * m)).take m).length = m := by
  rw [List.length_take, List.length_drop, h]
  have : (i + 1) * m ≤ n * m := Nat.mul_le_mul_right m hi
  have e : (i + 1) * m = i * m + m := by ring
  omega

theorem chunk_flatten {α : Type} (xs : List α) (n m : Nat) (h : xs.length = n * m) :
    ((List.range n).map fun i => (xs.drop (i * m)).take m).flatten = xs := by
  induction n generalizing xs with
  | zero =>
    have : xs = [] := List.length_eq_zero_iff.mp (by rw [h]; ring)
    rw [this]; rfl
  | succ n ih =>
    rw [List.range_succ_eq_map, List.map_cons, List.flatten_cons, List.map_map]
    have h1 : (xs.drop m).length = n * m := by
      rw [List.length_drop, h]
      have e : (n + 1) * m = n * m + m := by ring
      omega
    have := ih (xs.drop m) h1
    have e : (List.range n).map ((fun i => (xs.drop (i * m)).take m) ∘ Nat.succ) =
        (List.range n).map fun i => ((xs.drop m).drop (i * m)).take m := by
      apply List.map_congr_left
      intro i _
      simp only [Function.comp_def, List.drop_drop, Nat.succ_eq_add_one]
      congr 2
      ring
    rw [e, this, Nat.zero_mul, List.drop_zero, List.take_append_drop]

theorem size_cons (n : Nat) (sh : List Nat) : size (n :: sh) = n * size sh := by simp [size]

theorem dec_nest {α : Type} (f : α → J) (g : α → V) (sh : List Nat) (xs : List α) (hl : xs.length = size sh)
    (h : ∀ x ∈ xs, dec (f x) = .ok (g x)) : dec (nest sh (xs.map f)) = .ok (nestV sh (xs.map g)) := by
  induction sh generalizing xs with
  | nil =>
    cases xs with
    | nil => simp [size] at hl
    | cons x xs =>
      simp only [nest, nestV, List.map_cons, List.headD_cons]
      exact h x (by simp)
  | cons n sh ih =>
    rw [size_cons] at hl
    rw [nest, nestV, dec]
    rw [decL_map (g := fun i => nestV sh (((xs.map g).drop (i * size sh)).take (size sh)))]
    · rfl
    · intro i hi
      have hi' : i < n := List.mem_range.mp hi
      rw [← List.map_drop, ← List.map_take, ← List.map_drop, ← List.map_take]
      refine ih _ (chunk_length xs n _ i hl hi') ?_
      intro x hx
      exact h x (List.mem_of_mem_drop (List.mem_of_mem_take hx))

/-- The shape up to the first zero. -/
def trunc : List Nat → List Nat
  | [] => []
  | 0 :: _ => [0]
  | (n + 1) :: sh => (n + 1) :: trunc sh

theorem trunc_eq (sh : List Nat) (h : ∀ n ∈ sh, n ≠ 0) : trunc sh = sh := by
  induction sh with
  | nil => rfl
  | cons n sh ih =>
    cases n with
    | zero => exact absurd rfl (h 0 (by simp))
    | succ n => rw [trunc, ih fun m hm => h m (by simp [hm])]

/-- Not a list. -/
def leaf : V → Prop
  | .list _ => False
  | _ => True

theorem itemsOf_leaf (v : V) (h : leaf v) : itemsOf [] v = .ok [v] := by
  cases v <;> first | rfl | exact absurd h id

theorem shapeOf_leaf (v : V) (h : leaf v) : shapeOf v = [] := by
  cases v <;> first | rfl | exact absurd h id

theorem shapeOf_nest (sh : List Nat) (vs : List V) (hl : vs.length = size sh) (h : ∀ v ∈ vs, leaf v) :
    shapeOf (nestV sh vs) = trunc sh := by
  induction sh generalizing vs with
  | nil =>
    cases vs with
    | nil => simp [size] at hl
    | cons v vs => exact shapeOf_leaf v (h v (by simp))
  | cons n sh ih =>
    rw [size_cons] at hl
    cases n with
    | zero => rfl
    | succ n =>
      rw [nestV, List.range_succ_eq_map, List.map_cons, shapeOf, trunc]
      rw [ih _ (chunk_length vs (n + 1) _ 0 hl (by omega))
        fun v hv => h v (List.mem_of_mem_drop (List.mem_of_mem_take hv))]
      simp

theorem itemsOf_nest (sh : List Nat) (vs : List V) (hl : vs.length = size sh) (h : ∀ v ∈ vs, leaf v) :
    itemsOf (trunc sh) (nestV sh vs) = .ok vs := by
  induction sh generalizing vs with
  | nil =>
    cases vs with
    | nil => simp [size] at hl
    | cons v vs =>
      have : vs = [] := by simpa [size] using hl
      subst this
      exact itemsOf_leaf v (h v (by simp))
  | cons n sh ih =>
    rw [size_cons] at hl
    cases n with
    | zero =>
      have : vs = [] := List.length_eq_zero_iff.mp (by rw [hl]; ring)
      subst this
      rfl
    | succ n =>
      rw [nestV, trunc, itemsOf, if_pos (by simp)]
      rw [show (List.map (fun i => nestV sh ((vs.drop (i * size sh)).take (size sh))) (List.range (n + 1))).mapM
        (itemsOf (trunc sh)) = .ok ((List.range (n + 1)).map fun i => (vs.drop (i * size sh)).take (size sh)) from ?_]
      · simp only [bind, Except.bind, pure, Except.pure]
        rw [chunk_flatten vs (n + 1) _ hl]
      · rw [List.mapM_map]
        apply mapM_of
        intro i hi
        exact ih _ (chunk_length vs (n + 1) _ i hl (List.mem_range.mp hi))
          fun v hv => h v (List.mem_of_mem_drop (List.mem_of_mem_take hv))

theorem fixdata_nest {α : Type} (nf : Nat) (f g : α → V) (sh : List Nat) (xs : List α) (hl : xs.length = size sh)
    (h : ∀ x ∈ xs, fixdata nf 0 (f x) = .ok (g x)) :
    fixdata nf sh.length (nestV sh (xs.map f)) = .ok (nestV sh (xs.map g)) := by
  induction sh generalizing xs with
  | nil =>
    cases xs with
    | nil => simp [size] at hl
    | cons x xs => exact h x (by simp)
  | cons n sh ih =>
    rw [size_cons] at hl
    rw [nestV, nestV, List.length_cons, fixdata]
    rw [List.mapM_map, mapM_of (g := fun i => nestV sh (((xs.map g).drop (i * size sh)).take (size sh)))]
    · rfl
    · intro i hi
      have hi' : i < n := List.mem_range.mp hi
      simp only [Function.comp_def]
      rw [← List.map_drop, ← List.map_take, ← List.map_drop, ← List.map_take]
      exact ih _ (chunk_length xs n _ i hl hi') fun x hx => h x (List.mem_of_mem_drop (List.mem_of_mem_take hx))

end NBK.Json
