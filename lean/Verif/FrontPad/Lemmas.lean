import Verif.FrontPad.Model
import Mathlib.Algebra.BigOperators.Group.List.Basic

/-! Helper lemmas for `Verif.FrontPad.Props`. -/
namespace NBK.FrontPad

theorem lastItems_eq {α : Type} (a : List α) (k : Nat) : lastItems a k = a.drop (a.length - k) := by
  unfold lastItems; split
  · rfl
  · have : k = 0 := by omega
    subst this; simp

theorem torecvEntry_after {off front start n : Nat} (h : off ≤ start) : torecvEntry off front start n = 0 := by
  unfold torecvEntry
  grind

theorem torecvEntry_before {off front start n : Nat} (h : start + n ≤ off) (hf : front ≤ off) :
    torecvEntry off front start n = min n (start + n - (off - front)) := by
  unfold torecvEntry
  grind

theorem torecvEntry_le {off front start n : Nat} : torecvEntry off front start n ≤ n := by
  unfold torecvEntry
  grind

/-- Recursive form of `torecv`. -/
def plan (off front : Nat) : Nat → List Nat → List Nat
  | _, [] => []
  | s, n :: ns => torecvEntry off front s n :: plan off front (s + n) ns

theorem mapIdx_eq_plan (off front s : Nat) (N : List Nat) :
    (N.mapIdx fun i n => torecvEntry off front (s + offset N i) n) = plan off front s N := by
  induction N generalizing s with
  | nil => rfl
  | cons n ns ih =>
    simp only [List.mapIdx_cons, plan]
    congr 1
    rw [← ih (s + n)]
    congr 1
    funext i m
    simp [offset, Nat.add_assoc]

theorem torecv_eq_plan (N : List Nat) (r front : Nat) :
    torecv N r front = plan (offset N r) front 0 N := by
  rw [← mapIdx_eq_plan]
  simp [torecv]

theorem plan_append (off front s : Nat) (N M : List Nat) :
    plan off front s (N ++ M) = plan off front s N ++ plan off front (s + N.sum) M := by
  induction N generalizing s with
  | nil => simp [plan]
  | cons n ns ih => simp [plan, ih, Nat.add_assoc]

theorem plan_length (off front s : Nat) (N : List Nat) : (plan off front s N).length = N.length := by
  induction N generalizing s with
  | nil => rfl
  | cons n ns ih => simp [plan, ih]

theorem plan_after (off front s : Nat) (N : List Nat) (h : off ≤ s) :
    plan off front s N = List.replicate N.length 0 := by
  induction N generalizing s with
  | nil => rfl
  | cons n ns ih => simp [plan, torecvEntry_after h, ih (s + n) (by omega), List.replicate_succ]

theorem plan_sum_le (off front s : Nat) (N : List Nat) : (plan off front s N).sum ≤ N.sum := by
  induction N generalizing s with
  | nil => simp [plan]
  | cons n ns ih =>
    have := ih (s + n)
    have := @torecvEntry_le off front s n
    simp [plan]; omega

/-- What one rank receives, written as data of the ranks before it. -/
theorem recv_before {α : Type} (off front s : Nat) (L : List (List α × Nat))
    (hs : s + (lens L).sum ≤ off) (hf : front ≤ off) :
    ((L.zip (plan off front s (lens L))).map fun q => lastItems q.1.1 q.2).flatten
      = ((L.map Prod.fst).flatten).drop (off - front - s) := by
  induction L generalizing s with
  | nil => simp [lens, plan]
  | cons p L ih =>
    simp only [lens, List.map_cons, List.sum_cons] at hs
    have hs' : (s + p.1.length) + (lens L).sum ≤ off := by unfold lens; omega
    have := ih _ hs'
    simp only [lens, List.map_cons, plan, List.zip_cons_cons, List.flatten_cons] at this ⊢
    rw [this, torecvEntry_before (by omega) hf, lastItems_eq, List.drop_append]
    congr 1
    · rcases Nat.le_total (off - front - s) p.1.length with hle | hle
      · congr 1; omega
      · rw [List.drop_eq_nil_of_le hle, List.drop_eq_nil_of_le]; omega
    · congr 1; omega

theorem recv_zero {α : Type} (L : List (List α × Nat)) (k : Nat) :
    ((L.zip (List.replicate k 0)).map fun q => lastItems q.1.1 q.2).flatten = [] := by
  induction L generalizing k with
  | nil => simp
  | cons p L ih =>
    cases k with
    | zero => simp
    | succ k => 
      simp only [List.replicate_succ, List.zip_cons_cons, List.map_cons, List.flatten_cons, ih]
      simp [lastItems]

theorem plan_sum_eq {α : Type} (off front s : Nat) (L : List (List α × Nat)) :
    (plan off front s (lens L)).sum
      = (((L.zip (plan off front s (lens L))).map fun q => lastItems q.1.1 q.2).flatten).length := by
  induction L generalizing s with
  | nil => simp [lens, plan]
  | cons p L ih =>
    have h := ih (s + p.1.length)
    have h2 := @torecvEntry_le off front s p.1.length
    simp only [lens, List.map_cons, plan, List.sum_cons, List.zip_cons_cons, List.flatten_cons,
      List.length_append, lastItems_eq, List.length_drop] at h ⊢
    rw [← h]; omega

/-- Data and amount received by a rank whose predecessors are `L₁`. -/
theorem recv_rank {α : Type} (L₁ L₂ : List (List α × Nat)) (front : Nat)
    (hf : front ≤ (lens L₁).sum) :
    (((L₁ ++ L₂).zip (torecv (lens (L₁ ++ L₂)) L₁.length front)).map
        fun q => lastItems q.1.1 q.2).flatten
      = ((L₁.map Prod.fst).flatten).drop ((lens L₁).sum - front) := by
  have hoff : offset (lens (L₁ ++ L₂)) L₁.length = (lens L₁).sum := by
    simp [offset, lens]
  rw [torecv_eq_plan, hoff]
  have hl : lens (L₁ ++ L₂) = lens L₁ ++ lens L₂ := by simp [lens]
  rw [hl, plan_append, List.zip_append (by simp [plan_length, lens]), List.map_append,
    List.flatten_append, Nat.zero_add, plan_after _ _ (lens L₁).sum _ (Nat.le_refl _), recv_zero,
    recv_before _ _ _ _ (by omega) hf]
  simp

theorem sum_rank {α : Type} (L₁ L₂ : List (List α × Nat)) (front : Nat)
    (hf : front ≤ (lens L₁).sum) :
    (torecv (lens (L₁ ++ L₂)) L₁.length front).sum = front := by
  have h := recv_rank L₁ L₂ front hf
  have hoff : offset (lens (L₁ ++ L₂)) L₁.length = (lens L₁).sum := by
    simp [offset, lens]
  have h2 := plan_sum_eq (lens L₁).sum front 0 (L₁ ++ L₂)
  rw [torecv_eq_plan, hoff] at h
  rw [torecv_eq_plan, hoff, h2, h, List.length_drop, List.length_flatten]
  simp only [lens, List.map_map] at *
  have : (List.map (List.length ∘ Prod.fst) L₁).sum = (List.map (fun p => p.1.length) L₁).sum := rfl
  omega

theorem sum_rank_lt {α : Type} (L₁ L₂ : List (List α × Nat)) (front : Nat)
    (hf : (lens L₁).sum < front) :
    (torecv (lens (L₁ ++ L₂)) L₁.length front).sum ≠ front := by
  have hoff : offset (lens (L₁ ++ L₂)) L₁.length = (lens L₁).sum := by
    simp [offset, lens]
  have hl : lens (L₁ ++ L₂) = lens L₁ ++ lens L₂ := by simp [lens]
  rw [torecv_eq_plan, hoff, hl, plan_append, Nat.zero_add, plan_after _ _ (lens L₁).sum _ (Nat.le_refl _)]
  have := plan_sum_le (lens L₁).sum front 0 (lens L₁)
  simp; omega

end NBK.FrontPad
