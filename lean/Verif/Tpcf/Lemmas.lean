import Verif.Tpcf.Model
import Mathlib.Algebra.BigOperators.Ring.List
import Mathlib.Algebra.BigOperators.Group.List.Lemmas
import Mathlib.Tactic.Ring
import Mathlib.Tactic.Linarith
import Mathlib.Tactic.LinearCombination

/-! # The accumulation of the three-point function -/
set_option linter.unusedSimpArgs false

namespace NBK.Tpcf

variable {K : Type} [Field K] [LinearOrder K]

/-- The sum of `g` over the pairs of a primary in a bin. -/
def binSum (e : Env K) (p : Obj K) (g : Obj K → K) (S : List (Obj K)) (b : Nat) : K :=
  ((S.filter fun s => sep e p s > 0 ∧ dig e (sep e p s) = b + 1).map g).sum

theorem bincount_eq (e : Env K) (p : Obj K) (g : Obj K → K) (S : List (Obj K)) (b : Nat) :
    bincount ((S.filter fun s => sep e p s > 0).map fun s => (dig e (sep e p s), g s)) b = binSum e p g S b := by
  unfold bincount binSum
  rw [List.filter_map, List.map_map, List.filter_filter]
  congr 2
  apply List.filter_congr
  intro s _
  simp only [Function.comp, gt_iff_lt, Bool.decide_and]
  exact Bool.and_comm _ _

theorem binSum_append (e : Env K) (p : Obj K) (g : Obj K → K) (S T : List (Obj K)) (b : Nat) :
    binSum e p g (S ++ T) b = binSum e p g S b + binSum e p g T b := by
  simp [binSum]

/-- The entry of the dictionaries, zero if it is missing. -/
def val (a : Alms K) (l m : Nat) : (Nat → Cx K) × (Nat → Cx K) := (a l m).getD (fun _ => ⟨0, 0⟩, fun _ => ⟨0, 0⟩)

theorem val_fold (e : Env K) (lms : List (Nat × Nat)) (p : Obj K) (bs : List (List (Obj K))) (a : Alms K) (l m : Nat)
    (h : (l, m) ∈ lms) (b : Nat) :
    let f := bs.foldl (fun a x => callback e lms p x a) a
    let R := binSum e p (fun s => (e.Y l m (dir e p s)).re * s.w) bs.flatten b
    let I := if m ≠ 0 then binSum e p (fun s => (e.Y l m (dir e p s)).im * s.w) bs.flatten b else 0
    ((val f l m).1 b).re = ((val a l m).1 b).re + R ∧ ((val f l m).1 b).im = ((val a l m).1 b).im + I ∧
    ((val f l m).2 b).re = ((val a l m).2 b).re + p.w * R ∧ ((val f l m).2 b).im = ((val a l m).2 b).im + p.w * I := by
  induction bs generalizing a with
  | nil => simp [binSum]
  | cons x bs ih =>
    have ih := ih (callback e lms p x a)
    dsimp only at ih ⊢
    rw [List.foldl_cons]
    obtain ⟨i1, i2, i3, i4⟩ := ih
    rw [i1, i2, i3, i4, List.flatten_cons]
    simp only [binSum_append]
    have hc : callback e lms p x a l m = some (if m ≠ 0 then
        (fun b => ⟨((val a l m).1 b).re + binSum e p (fun s => (e.Y l m (dir e p s)).re * s.w) x b,
          ((val a l m).1 b).im + binSum e p (fun s => (e.Y l m (dir e p s)).im * s.w) x b⟩,
          fun b => ⟨((val a l m).2 b).re + p.w * binSum e p (fun s => (e.Y l m (dir e p s)).re * s.w) x b,
          ((val a l m).2 b).im + p.w * binSum e p (fun s => (e.Y l m (dir e p s)).im * s.w) x b⟩)
        else (fun b => ⟨((val a l m).1 b).re + binSum e p (fun s => (e.Y l m (dir e p s)).re * s.w) x b, ((val a l m).1 b).im⟩,
          fun b => ⟨((val a l m).2 b).re + p.w * binSum e p (fun s => (e.Y l m (dir e p s)).re * s.w) x b, ((val a l m).2 b).im⟩)) := by
      unfold callback
      simp only [h, if_true]
      simp only [bincount_eq]
      rfl
    by_cases hm : m = 0
    · subst hm
      simp only [ne_eq, not_true_eq_false, if_false] at *
      simp only [val, hc, Option.getD_some]
      refine ⟨?_, ?_, ?_, ?_⟩ <;> first | ring | simp
    · simp only [ne_eq, hm, not_false_eq_true, if_true] at *
      simp only [val, hc, Option.getD_some]
      refine ⟨?_, ?_, ?_, ?_⟩ <;> ring

theorem lms_filter (poles : List Nat) (hn : poles.Nodup) (l : Nat) (hl : l ∈ poles) :
    ((poles.flatMap fun l => (List.range (l + 1)).map fun m => (l, m)).filter fun x => decide (x.1 = l)) =
      (List.range (l + 1)).map fun m => (l, m) := by
  induction poles with
  | nil => cases hl
  | cons a t ih =>
    obtain ⟨h1, h2⟩ := List.nodup_cons.mp hn
    rw [List.flatMap_cons, List.filter_append, List.filter_map]
    by_cases ha : a = l
    · subst ha
      have h3 : ((t.flatMap fun l => (List.range (l + 1)).map fun m => (l, m)).filter fun x => decide (x.1 = a)) = [] := by
        rw [List.filter_eq_nil_iff]
        intro x hx
        obtain ⟨y, hy, hx⟩ := List.mem_flatMap.mp hx
        obtain ⟨m, _, rfl⟩ := List.mem_map.mp hx
        simp only [decide_eq_true_eq]
        rintro rfl
        exact h1 hy
      rw [h3, List.append_nil]
      congr 1
      rw [List.filter_eq_self]
      intro m _
      simp
    · have hl' : l ∈ t := by
        rcases List.mem_cons.mp hl with h | h
        · exact absurd h.symm ha
        · exact h
      rw [ih h2 hl']
      have : ((List.range (a + 1)).filter ((fun x : Nat × Nat => decide (x.1 = l)) ∘ fun m => (a, m))) = [] := by
        rw [List.filter_eq_nil_iff]
        intro m _
        simp [ha]
      rw [this]; rfl

/-- The contribution of one harmonic. -/
def term (e : Env K) (p : Obj K) (S : List (Obj K)) (l m b1 b2 : Nat) : K :=
  let R := binSum e p (fun s => (e.Y l m (dir e p s)).re * s.w) S
  let I := binSum e p (fun s => (e.Y l m (dir e p s)).im * s.w) S
  if m = 0 then R b1 * R b2 else 2 * (R b1 * R b2 + I b1 * I b2)

theorem primary_eq (e : Env K) (poles : List Nat) (hn : poles.Nodup) (bunches : Obj K → List (List (Obj K))) (p : Obj K)
    (l b1 b2 : Nat) (hl : l ∈ poles) :
    primary e (poles.flatMap fun l => (List.range (l + 1)).map fun m => (l, m)) bunches p l b1 b2 =
      p.w * ((List.range (l + 1)).map fun m => term e p (bunches p).flatten l m b1 b2).sum := by
  unfold primary
  dsimp only
  rw [lms_filter poles hn l hl, List.map_map, ← List.sum_map_mul_left]
  congr 1
  apply List.map_congr_left
  intro m hm
  have hmem : (l, m) ∈ poles.flatMap fun l => (List.range (l + 1)).map fun m => (l, m) :=
    List.mem_flatMap.mpr ⟨l, hl, List.mem_map.mpr ⟨m, hm, rfl⟩⟩
  have h1 := val_fold e _ p (bunches p) (fun _ _ => none) l m hmem b1
  have h2 := val_fold e _ p (bunches p) (fun _ _ => none) l m hmem b2
  dsimp only at h1 h2
  generalize (bunches p).foldl (fun a b => callback e _ p b a) (fun _ _ => none) = a at *
  have hz : val (fun _ _ => none : Alms K) l m = (fun _ => ⟨0, 0⟩, fun _ => ⟨0, 0⟩) := rfl
  rw [hz] at h1 h2
  have hmatch : (match a l m with | some y => almWAlm m y b1 b2 | none => 0) = almWAlm m (val a l m) b1 b2 := by
    unfold val
    cases a l m with
    | none => simp [almWAlm]
    | some y => rfl
  simp only [Function.comp]
  refine hmatch.trans ?_
  obtain ⟨a1, a2, a3, a4⟩ := h1
  obtain ⟨c1, c2, c3, c4⟩ := h2
  unfold almWAlm term
  simp only [a1, a2, a3, a4, c1, c2, c3, c4, zero_add]
  by_cases hm : m = 0
  · subst hm
    simp only [ne_eq, not_true_eq_false, if_false, if_true]; ring
  · simp only [ne_eq, hm, not_false_eq_true, if_true, if_false]; ring

omit [LinearOrder K] in
theorem sum_mul_sum {α : Type} (f g : α → K) (S T : List α) :
    (S.map f).sum * (T.map g).sum = (S.map fun j => (T.map fun k => f j * g k).sum).sum := by
  induction S with
  | nil => simp
  | cons a S ih => simp [add_mul, ih, List.sum_map_mul_left]

end NBK.Tpcf
