import Verif.Convpower.Lemmas
import Mathlib.Tactic.LinearCombination

/-!
# Properties of the multipoles of `ConvolvedFFTPower` (C73)
-/
set_option linter.unusedSimpArgs false

namespace NBK.Convpower

variable {n : Nat} {K β γ δ : Type} [CommRing K]

/-- Specification: the amplitude `A_0` of a field. -/
def A0 (e : Env n K β γ δ) (F : Fin n → K) (c : Option (Fin n → K)) (k : Fin n) : K := e.volume * factor c k * e.r2c F k

/-- Specification: the amplitude `A_ell` of a field as in the docstring: `4 pi V` times the sum over `m` of `Y_lm(k)` times
the transform of `Y_lm(x) F(x)`; `A_0` for `ell = 0`. -/
def A (e : Env n K β γ δ) (F : Fin n → K) (ell : Nat) (k : Fin n) : K :=
  if ell = 0 then A0 e F e.comp2 k
  else e.fourPi * e.volume * factor e.comp2 k * ((e.ylms ell).map fun y => y.2 k * e.r2c (fun x => y.1 x * F x) k).sum

theorem amp_eq (e : Env n K β γ δ) (F : Fin n → K) (ell : Nat) (h : ell ≠ 0) : amp e F ell = A e F ell := by
  funext k
  unfold amp A
  rw [if_neg h]
  have : ((e.ylms ell).map fun y => ylmTerm e F y k) = (e.ylms ell).map fun y => y.2 k * e.r2c (fun x => y.1 x * F x) k := by
    apply List.map_congr_left
    intro y _
    unfold ylmTerm
    rw [mul_comm]
    congr 2
    funext x; ring
  rw [this]; ring

theorem sorted_tail (l : List Nat) (h : 0 ∈ l.insertionSort (· ≤ ·)) : ∃ t, l.insertionSort (· ≤ ·) = 0 :: t := by
  have hs := List.pairwise_insertionSort (· ≤ ·) l
  cases hl : l.insertionSort (· ≤ ·) with
  | nil => rw [hl] at h; cases h
  | cons a t =>
    rw [hl] at h hs
    rcases List.mem_cons.mp h with rfl | h'
    · exact ⟨t, rfl⟩
    · have := (List.pairwise_cons.mp hs).1 0 h'
      have : a = 0 := by omega
      exact ⟨t, by rw [this]⟩

/-- C73: for every list of different multipoles the result has exactly these columns, in increasing order, and the column of
`ell` is the projection on the bins of `norm A_0(field 1) conj(A_ell(field 2))`: the reuse of the work arrays, the aliases of
an auto-correlation, the order and the previous contents of the memory do not matter. -/
theorem multipoles_eq (e : Env n K β γ δ) (auto : Bool) (asked : List Nat) (h : Heap n K)
    (hauto : auto = true → e.field2 = e.field1 ∧ e.comp2 = e.comp1) (hn : asked.Nodup) (hne : asked ≠ []) :
    multipoles e auto asked h = .ok ⟨some e.projK, some e.projN, (asked.insertionSort (· ≤ ·)).map fun ell =>
      (ell, some (e.projP fun k => e.norm * A0 e e.field1 e.comp1 k * e.conj (A e e.field2 ell k)))⟩ := by
  have hperm := List.perm_insertionSort (· ≤ ·) asked
  have hnd : (asked.insertionSort (· ≤ ·)).Nodup := hperm.nodup_iff.mpr hn
  have hmem : 0 ∈ asked.insertionSort (· ≤ ·) ↔ 0 ∈ asked := hperm.mem_iff
  obtain ⟨p1, p2, p3⟩ := prepare_spec e auto (decide (0 ∈ asked)) h (fun ha => (hauto ha).1)
  have href : (if auto = true then Ref.rfield1 else Ref.rfield2) = .rfield1 ∨ (if auto = true then Ref.rfield1 else Ref.rfield2) = .rfield2 := by
    cases auto <;> simp
  unfold multipoles
  rw [if_neg (by simpa using hnd)]
  dsimp only
  by_cases h0 : 0 ∈ asked
  · obtain ⟨t, ht⟩ := sorted_tail asked (hmem.mpr h0)
    rw [if_pos (hmem.mpr h0), if_pos h0, ht, List.tail_cons]
    obtain ⟨a1, a2, a3, a4⟩ := ellLoop_spec e (if auto = true then Ref.rfield1 else Ref.rfield2) href t
      (prepare e auto (decide (0 ∈ asked)) h) ((0 :: t).map fun ell => (ell, (none : Option δ))) false
    have ht0 : 0 ∉ t := by rw [ht] at hnd; exact (List.nodup_cons.mp hnd).1
    simp only [if_true]
    rw [a3, slabLoop_eq _ .A01 _ (fun h h' i hh => by rw [hh, hh]), assign_same, a1, p1]
    congr 2
    unfold setPower setAll
    rw [List.map_map, List.map_map]
    apply List.map_congr_left
    intro ell hell
    simp only [Function.comp_def]
    rcases List.mem_cons.mp hell with rfl | hell
    · rw [if_neg ht0, if_pos rfl]
      congr 3
      funext k
      have hA : (ellLoop e (if auto = true then Ref.rfield1 else Ref.rfield2) t
          (prepare e auto (decide (0 ∈ asked)) h, (0 :: t).map fun ell => (ell, (none : Option δ)), false)).1
          (if auto = true then Ref.A01 else Ref.A02) k = A e e.field2 0 k := by
        cases hau : auto with
        | true =>
          rw [hau] at a1 p1
          simp only [if_true] at a1 ⊢
          rw [a1, p1]
          obtain ⟨hf, hc⟩ := hauto hau
          unfold A A0
          rw [if_pos rfl, hf, hc]; ring
        | false =>
          rw [hau] at a2 p2
          simp only [Bool.false_eq_true, if_false] at a2 ⊢
          rw [a2, p2 rfl (by simpa using h0)]
          unfold A A0
          rw [if_pos rfl]; ring
      rw [hA]
      unfold A0
      ring
    · have hne0 : ell ≠ 0 := fun he => ht0 (he ▸ hell)
      rw [if_pos hell]
      simp only
      rw [if_neg hne0, p3, amp_eq e _ ell hne0]
      congr 3
      funext k
      unfold A0
      ring
  · have hms : 0 ∉ asked.insertionSort (· ≤ ·) := fun hm => h0 (hmem.mp hm)
    rw [if_neg hms, if_neg h0, List.tail_cons]
    obtain ⟨a1, a2, a3, a4⟩ := ellLoop_spec e (if auto = true then Ref.rfield1 else Ref.rfield2) href (asked.insertionSort (· ≤ ·))
      (prepare e auto (decide (0 ∈ asked)) h) ((asked.insertionSort (· ≤ ·)).map fun ell => (ell, (none : Option δ))) false
    have hnil : (asked.insertionSort (· ≤ ·)).isEmpty = false := by
      cases hl : asked.insertionSort (· ≤ ·) with
      | nil => rw [hl] at hperm; exact absurd hperm.nil_eq.symm hne
      | cons _ _ => rfl
    rw [a4, a3, hnil]
    simp only [Bool.false_or, Bool.not_false, if_true]
    congr 2
    unfold setAll
    rw [List.map_map]
    apply List.map_congr_left
    intro ell hell
    have hne0 : ell ≠ 0 := fun he => hms (he ▸ hell)
    simp only [Function.comp_def]
    rw [if_pos hell, p3, amp_eq e _ ell hne0]
    congr 3
    funext k
    rw [p1]
    unfold A0
    ring

/-- The column of a multipole. -/
def Result.get (r : Result β γ δ) (ell : Nat) : Option δ := ((r.power.find? fun q => q.1 = ell).bind (·.2))

theorem find_map (f : Nat → δ) (l : List Nat) (ell : Nat) (h : ell ∈ l) :
    ((l.map fun x => (x, some (f x))).find? fun q => decide (q.1 = ell)) = some (ell, some (f ell)) := by
  induction l with
  | nil => cases h
  | cons a l ih =>
    rw [List.map_cons, List.find?_cons]
    by_cases ha : a = ell
    · simp [ha]
    · simp only [ha, decide_false]
      exact ih (by rcases List.mem_cons.mp h with h | h; exact absurd h.symm ha; exact h)

/-- C73: a multipole is the same whichever other multipoles are asked for, in whatever order, and whatever is in memory. -/
theorem multipole_alone (e : Env n K β γ δ) (auto : Bool) (asked : List Nat) (h h' : Heap n K)
    (hauto : auto = true → e.field2 = e.field1 ∧ e.comp2 = e.comp1) (hn : asked.Nodup) (ell : Nat) (hell : ell ∈ asked) :
    ∃ r r', multipoles e auto asked h = .ok r ∧ multipoles e auto [ell] h' = .ok r' ∧ r.get ell = r'.get ell ∧
      (r.get ell).isSome ∧ r.k = r'.k ∧ r.modes = r'.modes := by
  have hne : asked ≠ [] := List.ne_nil_of_mem hell
  have h1 := multipoles_eq e auto asked h hauto hn hne
  have h2 := multipoles_eq e auto [ell] h' hauto (by simp) (by simp)
  refine ⟨_, _, h1, h2, ?_⟩
  have hm : ell ∈ asked.insertionSort (· ≤ ·) := (List.perm_insertionSort (· ≤ ·) asked).mem_iff.mpr hell
  have g1 := find_map (fun ell => e.projP fun k => e.norm * A0 e e.field1 e.comp1 k * e.conj (A e e.field2 ell k)) _ ell hm
  have g2 := find_map (fun ell => e.projP fun k => e.norm * A0 e e.field1 e.comp1 k * e.conj (A e e.field2 ell k))
    ([ell].insertionSort (· ≤ ·)) ell (by simp)
  unfold Result.get
  rw [g1, g2]
  exact ⟨rfl, rfl, rfl, rfl⟩

/-- C73: the auto-correlation is the cross-correlation of two meshes with the same field and compensation. -/
theorem auto_eq_cross (e : Env n K β γ δ) (asked : List Nat) (h h' : Heap n K) (hf : e.field2 = e.field1)
    (hc : e.comp2 = e.comp1) (hn : asked.Nodup) (hne : asked ≠ []) :
    multipoles e true asked h = multipoles e false asked h' := by
  rw [multipoles_eq e true asked h (fun _ => ⟨hf, hc⟩) hn hne,
    multipoles_eq e false asked h' (fun hc => by cases hc) hn hne]

/-- C73: the sum over `m` is the Yamamoto estimator. If the transform is the sum of the cells with phases `ph`, and the
harmonics satisfy the addition theorem at the mode `k`, `A_ell` is `(2 ell + 1) V` times the transform of the field with the
Legendre polynomial `leg` of the angle between mode and position. -/
theorem yamamoto (e : Env n K β γ δ) (ph : Fin n → Fin n → K) (hr : ∀ f k, e.r2c f k = ∑ x, ph k x * f x)
    (leg : Nat → Fin n → Fin n → K) (ell : Nat) (hell : ell ≠ 0) (k : Fin n)
    (hadd : ∀ x, e.fourPi * ((e.ylms ell).map fun y => y.2 k * y.1 x).sum = (2 * ell + 1) * leg ell k x)
    (F : Fin n → K) :
    A e F ell k = (2 * ell + 1) * e.volume * factor e.comp2 k * ∑ x, ph k x * (leg ell k x * F x) := by
  unfold A
  rw [if_neg hell]
  have h1 : ((e.ylms ell).map fun y => y.2 k * e.r2c (fun x => y.1 x * F x) k).sum =
      ∑ x, ph k x * F x * ((e.ylms ell).map fun y => y.2 k * y.1 x).sum := by
    generalize e.ylms ell = l
    induction l with
    | nil => simp
    | cons y l ih =>
      rw [List.map_cons, List.sum_cons, ih, hr, Finset.mul_sum, ← Finset.sum_add_distrib]
      apply Finset.sum_congr rfl
      intro x _
      rw [List.map_cons, List.sum_cons]; ring
  rw [h1]
  have h2 : ∀ x, e.fourPi * (ph k x * F x * ((e.ylms ell).map fun y => y.2 k * y.1 x).sum) =
      (2 * ell + 1) * (ph k x * (leg ell k x * F x)) := by
    intro x
    have := congrArg (fun t => ph k x * F x * t) (hadd x)
    linear_combination this
  have h3 : e.fourPi * ∑ x, ph k x * F x * ((e.ylms ell).map fun y => y.2 k * y.1 x).sum =
      (2 * ell + 1) * ∑ x, ph k x * (leg ell k x * F x) := by
    rw [Finset.mul_sum, Finset.mul_sum]
    exact Finset.sum_congr rfl fun x _ => h2 x
  linear_combination (e.volume * factor e.comp2 k) * h3

/-- C73 fails for an empty list of multipoles, which is not rejected: a local variable is not bound. A multipole that is
asked for twice raises. -/
theorem no_poles (e : Env n K β γ δ) (auto : Bool) (h : Heap n K) : multipoles e auto [] h = .error .unboundLocal := by
  simp [multipoles, ellLoop]

theorem double_pole (e : Env n K β γ δ) (auto : Bool) (asked : List Nat) (h : Heap n K) (hd : ¬ asked.Nodup) :
    multipoles e auto asked h = .error .valueError := by
  unfold multipoles
  rw [if_pos (by rwa [(List.perm_insertionSort (· ≤ ·) asked).nodup_iff])]

/-- An example with two cells, integers as numbers and the sum and the difference as transform. -/
def exEnv : Env 2 ℤ Nat Nat (List ℤ) where
  field1 := fun i => if i = 0 then 3 else 1
  field2 := fun i => if i = 0 then 3 else 1
  r2c := fun f k => if k = 0 then f 0 + f 1 else f 0 - f 1
  conj := fun x => -x
  comp1 := some fun k => if k = 0 then 1 else 2
  comp2 := some fun k => if k = 0 then 1 else 2
  ylms := fun ell => [(fun x => if x = 0 then (ell : ℤ) else 1, fun _ => 1), (fun _ => 1, fun k => if k = 0 then 0 else 5)]
  volume := 2
  fourPi := 12
  norm := 7
  projK := 0
  projP := fun f => [f 0, f 1]
  projN := 0

/-- Non-vacuity: three multipoles out of order, auto and cross, garbage in memory. -/
example : multipoles exEnv true [4, 0, 2] (fun _ _ => 99) = .ok ⟨some 0, some 0,
      [(0, some [-448, -448]), (2, some [-9408, -40320]), (4, some [-17472, -56448])]⟩ ∧
    multipoles exEnv false [4, 0, 2] (fun _ _ => -5) = multipoles exEnv true [4, 0, 2] (fun _ _ => 99) := by
  have h := multipoles_eq exEnv true [4, 0, 2] (fun _ _ => 99) (fun _ => ⟨rfl, rfl⟩) (by decide) (by decide)
  refine ⟨?_, (auto_eq_cross exEnv [4, 0, 2] _ _ rfl rfl (by decide) (by decide)).symm⟩
  rw [h]
  decide +kernel

/-- Non-vacuity of `yamamoto`: the phases of the example, and harmonics of one term. -/
example : (∀ f k, exEnv.r2c f k = ∑ x, (fun k x => if k = 0 ∨ x = 0 then 1 else -1 : Fin 2 → Fin 2 → ℤ) k x * f x) ∧
    ∀ x, (12 : ℤ) * (([(fun _ => 1, fun _ => 1)] : List ((Fin 2 → ℤ) × (Fin 2 → ℤ))).map fun y => y.2 0 * y.1 x).sum =
      (2 * 1 + 1) * (fun _ _ _ => 4 : Nat → Fin 2 → Fin 2 → ℤ) 1 0 x := by
  constructor
  · intro f k
    rw [Fin.sum_univ_two]
    match k with
    | 0 => simp [exEnv]
    | 1 => simp [exEnv]; ring
  · intro x; simp

end NBK.Convpower
