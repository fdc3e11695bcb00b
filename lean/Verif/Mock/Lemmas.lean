import Verif.Mock.Model
import Verif.Rng.Props
import Mathlib.Data.List.Sort
import Mathlib.Tactic.FieldSimp
import Mathlib.Tactic.Linarith
import Mathlib.Tactic.Ring
import Mathlib.Tactic.Positivity

/-! # The steps of `poisson_sample_to_points` -/
set_option linter.unusedSimpArgs false

namespace NBK.Mock

theorem flat_cellOf (n : Cell) (id : Nat) : flat n (cellOf n id) = id := by
  unfold flat cellOf
  have h1 : id / n.k / n.j * n.j + id / n.k % n.j = id / n.k := by
    rw [Nat.mul_comm]; exact Nat.div_add_mod _ _
  rw [h1, Nat.mul_comm]; exact Nat.div_add_mod _ _

theorem mem_cells (n c : Cell) (h : c ∈ cells n) : flat n c < ncells n ∧ cellOf n (flat n c) = c := by
  unfold cells at h
  obtain ⟨id, hid, rfl⟩ := List.mem_map.mp h
  rw [flat_cellOf]
  exact ⟨List.mem_range.mp hid, rfl⟩

theorem floor_half (i : Nat) (h : ℚ) (hh : h ≠ 0) : ⌊(i : ℚ) * h / h + 1 / 2⌋ = (i : Int) := by
  rw [mul_div_assoc, div_self hh, mul_one, Int.floor_eq_iff]
  constructor <;> push_cast <;> linarith

theorem orderby_corner {σ : Type} (e : Env σ) (hx : e.H.x ≠ 0) (hy : e.H.y ≠ 0) (hz : e.H.z ≠ 0) (c : Cell) :
    orderby e (corner e c) = (flat e.nmesh c : Int) := by
  unfold orderby corner flat
  simp only [floor_half _ _ hx, floor_half _ _ hy, floor_half _ _ hz]
  push_cast; ring

theorem range_filterMap {α : Type} (l : List α) : ((List.range l.length).filterMap fun i => l[i]?) = l := by
  induction l with
  | nil => rfl
  | cons a l ih =>
    rw [List.length_cons, List.range_succ_eq_map, List.filterMap_cons]
    simp only [List.getElem?_cons_zero, List.filterMap_map]
    congr 1

/-- What sorting by keys does: it is an order of the items in which the keys do not decrease. -/
def Contract (argsort : List Int → List Nat) : Prop :=
  ∀ keys, (argsort keys).Perm (List.range keys.length) ∧
    ((argsort keys).filterMap fun i => keys[i]?).Pairwise (· ≤ ·)

theorem sorted_keys (argsort : List Int → List Nat) (h : Contract argsort) (keys K : List Int) (hp : keys.Perm K)
    (hK : K.Pairwise (· ≤ ·)) : ((argsort keys).filterMap fun i => keys[i]?) = K := by
  obtain ⟨h1, h2⟩ := h keys
  have h3 : ((argsort keys).filterMap fun i => keys[i]?).Perm keys := by
    have := h1.filterMap fun i => keys[i]?
    rwa [range_filterMap] at this
  exact (h3.trans hp).eq_of_pairwise (fun a b _ _ h1 h2 => le_antisymm h1 h2) h2 hK

theorem map_filterMap {α : Type} (order : List Nat) (keys : List Int) (g : Int → α) :
    (order.filterMap fun i => (keys.map g)[i]?) = (order.filterMap fun i => keys[i]?).map g := by
  induction order with
  | nil => rfl
  | cons i l ih =>
    rw [List.filterMap_cons, List.filterMap_cons, ih, List.getElem?_map]
    cases keys[i]? <;> simp

theorem sortAs_flatten {α : Type} (order : List Nat) (D : List (List α)) (S : List α)
    (h : (order.filterMap fun i => D.flatten[i]?) = S) (hl : S.length = D.flatten.length) : (sortAs order D).flatten = S := by
  unfold sortAs
  dsimp only
  rw [NBK.Comm.windows_flatten, h, List.take_of_length_le]
  rw [hl, List.length_flatten]

theorem windows_length {α : Type} (S : List α) (sizes : List Nat) (h : sizes.sum ≤ S.length) :
    (sizes.mapIdx fun r n => (S.drop ((sizes.take r).sum)).take n).map List.length = sizes := by
  induction sizes generalizing S with
  | nil => rfl
  | cons n ns ih =>
    simp only [List.mapIdx_cons, List.take_zero, List.sum_nil, List.drop_zero, List.take_succ_cons, List.sum_cons,
      List.map_cons] at *
    have h2 := ih (S.drop n) (by simp; omega)
    simp only [List.drop_drop] at h2
    rw [h2]
    simp; omega

theorem sortAs_length {α : Type} (order : List Nat) (D : List (List α))
    (h : (order.filterMap fun i => D.flatten[i]?).length = D.flatten.length) :
    (sortAs order D).map List.length = D.map List.length := by
  unfold sortAs
  dsimp only
  rw [windows_length]
  rw [h, List.length_flatten]

theorem pairwise_ids (cnt : Nat → Nat) (N : Nat) :
    ((List.range N).flatMap fun i => List.replicate (cnt i) (i : Int)).Pairwise (· ≤ ·) := by
  rw [List.pairwise_flatMap]
  refine ⟨fun i _ => List.pairwise_replicate.mpr (Or.inr (le_refl _)), ?_⟩
  refine List.pairwise_lt_range.imp ?_
  intro a b hab x hx y hy
  rw [List.eq_of_mem_replicate hx, List.eq_of_mem_replicate hy]
  omega

theorem zipWith_flatten {α β γ : Type} (f : α → β → γ) (A : List (List α)) (B : List (List β))
    (h : A.map List.length = B.map List.length) :
    (List.zipWith (fun a b => List.zipWith f a b) A B).flatten = List.zipWith f A.flatten B.flatten ∧
    (List.zipWith (fun a b => List.zipWith f a b) A B).map List.length = A.map List.length := by
  induction A generalizing B with
  | nil => simp
  | cons a A ih =>
    cases B with
    | nil => simp at h
    | cons b B =>
      simp only [List.map_cons, List.cons.injEq] at h
      obtain ⟨i1, i2⟩ := ih B h.2
      constructor
      · simp only [List.zipWith_cons_cons, List.flatten_cons, i1]
        rw [List.zipWith_append h.1]
      · simp only [List.zipWith_cons_cons, List.map_cons, i2]
        simp [h.1]

end NBK.Mock
