import Verif.Recon.Model
import Mathlib.Algebra.BigOperators.Ring.Finset
import Mathlib.Tactic.FieldSimp
import Mathlib.Tactic.Linarith
import Mathlib.Tactic.Ring
import Mathlib.Tactic.LinearCombination

/-! # The painting loop of `FFTRecon` -/
set_option linter.unusedSimpArgs false

namespace NBK.Recon

/-- The catalog moved back by the displacement. -/
def shifted (cat : List (List V3)) : Option (List (List V3)) → List (List V3)
  | some s => List.zipWith (fun p d => List.zipWith (fun x y => x - y) p d) cat s
  | none => cat

theorem chunks_sum {α : Type} (g : α → ℚ) (size B : Nat) (l : List α) :
    ((List.range B).map fun b => ((chunk size (b * size) l).map g).sum).sum = ((l.take (B * size)).map g).sum := by
  induction B with
  | zero => simp
  | succ B ih =>
    rw [List.range_succ, List.map_append, List.sum_append, ih, Nat.succ_mul, List.take_add, List.map_append, List.sum_append]
    simp [chunk]

theorem foldl_paint {n : Nat} (share : V3 → Fin n → ℚ) (obj : Nat → List (List V3)) (l : List Nat) (out : Fin n → ℚ) (c : Fin n) :
    l.foldl (fun out b => paintInto share out (obj b)) out c =
      out c + (l.map fun b => ((obj b).map fun r => (r.map fun p => share p c).sum).sum).sum := by
  induction l generalizing out with
  | nil => simp
  | cons b l ih => rw [List.foldl_cons, ih]; simp [paintInto]; ring

theorem sum_comm_list {α β : Type} (f : α → β → ℚ) (l : List α) (m : List β) :
    (l.map fun a => (m.map fun b => f a b).sum).sum = (m.map fun b => (l.map fun a => f a b).sum).sum := by
  induction l with
  | nil => simp
  | cons a l ih => simp [ih, List.sum_map_add]

theorem foldl_max_le (l : List Nat) (a : Nat) : a ≤ l.foldl max a ∧ ∀ x ∈ l, x ≤ l.foldl max a := by
  induction l generalizing a with
  | nil => simp
  | cons y l ih =>
    obtain ⟨h1, h2⟩ := ih (max a y)
    refine ⟨le_trans (le_max_left _ _) h1, ?_⟩
    intro x hx
    rcases List.mem_cons.mp hx with rfl | hx
    · exact le_trans (le_max_right _ _) h1
    · exact h2 x hx

theorem shifted_len (cat : List (List V3)) (s : Option (List (List V3))) :
    ∀ r ∈ shifted cat s, r.length ≤ (cat.map List.length).foldl max 0 := by
  cases s with
  | none => intro r hr; exact (foldl_max_le _ _).2 _ (List.mem_map.mpr ⟨r, hr, rfl⟩)
  | some s =>
    intro r hr
    simp only [shifted] at hr
    obtain ⟨i, hi, rfl⟩ := List.getElem_of_mem hr
    rw [List.length_zipWith] at hi
    rw [List.getElem_zipWith, List.length_zipWith]
    refine le_trans (min_le_left _ _) ((foldl_max_le _ _).2 _ (List.mem_map.mpr ⟨cat[i], List.getElem_mem _, rfl⟩))

theorem chunk_shifted (cat : List (List V3)) (s : Option (List (List V3))) (size i : Nat) :
    dposOf size i cat s = (shifted cat s).map (chunk size i) := by
  cases s with
  | none => rfl
  | some s =>
    simp only [dposOf, shifted, List.map_zipWith]
    congr 1
    funext p d
    simp [chunk, List.drop_zipWith, List.take_zipWith]

theorem flatten_sum {α : Type} (g : α → ℚ) (l : List (List α)) : (l.map fun r => (r.map g).sum).sum = (l.flatten.map g).sum := by
  induction l with
  | nil => simp
  | cons r l ih => simp [ih]

theorem flatten_len {α : Type} (l : List (List α)) : (l.map List.length).sum = l.flatten.length := by
  simp [List.length_flatten]

/-- The field of a catalog: every object once. -/
theorem workWith_eq {n : Nat} (share : V3 → Fin n → ℚ) (size : Nat) (hs : size ≠ 0) (cat : List (List V3))
    (s : Option (List (List V3))) :
    workWith share size cat s = .ok (if (cat.flatten.length : ℚ) / n = 0 then none else
      some fun c => ((shifted cat s).flatten.map fun p => share p c).sum / (cat.flatten.length / n)) := by
  unfold workWith
  dsimp only
  rw [if_neg hs, flatten_len]
  congr 2
  congr 1
  funext c
  congr 1
  simp only [chunk_shifted]
  rw [foldl_paint share (fun b => (shifted cat s).map (chunk size (b * size)))]
  simp only [zero_add, List.map_map, Function.comp_def]
  rw [sum_comm_list (fun b r => ((chunk size (b * size) r).map fun p => share p c).sum), ← flatten_sum]
  congr 1
  apply List.map_congr_left
  intro r hr
  rw [chunks_sum]
  congr 2
  apply List.take_of_length_le
  have := shifted_len cat s r hr
  generalize (cat.map List.length).foldl max 0 = N at *
  have hdm := Nat.div_add_mod (N + size - 1) size
  have hlt := Nat.mod_lt (N + size - 1) (by omega : 0 < size)
  have hc := Nat.mul_comm size ((N + size - 1) / size)
  omega

/-- Shifting keeps the number of objects when every object has a displacement. -/
theorem shifted_count (cat s : List (List V3)) (h : List.Forall₂ (fun p d => p.length = d.length) cat s) :
    (shifted cat (some s)).flatten.length = cat.flatten.length := by
  induction h with
  | nil => rfl
  | cons h1 _ ih =>
    simp only [shifted, List.zipWith_cons_cons, List.flatten_cons, List.length_append] at *
    rw [ih]; simp [h1]

theorem sum_shares {n : Nat} (share : V3 → Fin n → ℚ) (h1 : ∀ p, ∑ c, share p c = 1) (l : List V3) :
    ∑ c, (l.map fun p => share p c).sum = l.length := by
  induction l with
  | nil => simp
  | cons p l ih => simp [Finset.sum_add_distrib, ih, h1]; ring

end NBK.Recon
