import Verif.Dist.Model
import Verif.Comm.Basic
import Mathlib.Data.Finset.Card
import Mathlib.Data.Finset.Dedup
import Mathlib.Data.List.Flatten
import Mathlib.Data.List.Perm.Basic

/-! Helper lemmas for distributed arrays. -/
set_option linter.unusedSimpArgs false
namespace NBK.Dist

theorem findSome_heads {α : Type} (D : List (List α)) :
    (D.map List.head?).findSome? id = D.flatten.head? := by
  induction D with
  | nil => rfl
  | cons d D ih => cases d <;> simp [ih]

theorem next_eq {α : Type} (D : List (List α)) (r : Nat) : next D r = (D.drop (r + 1)).flatten.head? := by
  rw [next, heads, ← List.map_drop, findSome_heads]

theorem findSome_tails {α : Type} (D : List (List α)) :
    ((D.map List.getLast?).reverse).findSome? id = D.flatten.getLast? := by
  induction D with
  | nil => rfl
  | cons d D ih =>
    rw [List.map_cons, List.reverse_cons, List.findSome?_append, ih, List.flatten_cons,
      List.getLast?_append]
    cases D.flatten.getLast? <;> cases d.getLast? <;> simp

theorem prev_eq {α : Type} (D : List (List α)) (r : Nat) : prev D r = (D.take r).flatten.getLast? := by
  rw [prev, tails, ← List.map_take, findSome_tails]

end NBK.Dist
