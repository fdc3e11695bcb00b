import Verif.Seeds.Model
import Mathlib.Tactic.Linarith
import Mathlib.Tactic.Ring

/-! # C79: seeds of random catalogs -/
set_option linter.unusedSimpArgs false

namespace NBK.Seeds

/-- **C79** (seed). All ranks agree on the seed, which is the given one or the draw of the root; a catalog made again with
the recorded seed has the same seed, whatever the root would draw then, on any number of ranks. -/
theorem resolve_spec (P : Nat) (seed : Option Nat) (draw : Nat) :
    resolve P seed draw = List.replicate P (some (seed.getD draw)) := by
  cases seed with
  | some s => rfl
  | none =>
    unfold resolve
    cases P with
    | zero => rfl
    | succ P =>
      rw [List.range_succ_eq_map]
      simp [bcast, List.replicate_succ, Function.comp_def, List.map_const']

theorem resolve_again (P P' : Nat) (seed : Option Nat) (draw draw' : Nat) (s : Option Nat)
    (h : s ∈ resolve P seed draw) : resolve P' s draw' = List.replicate P' (some (seed.getD draw)) := by
  rw [resolve_spec] at h
  rw [List.eq_of_mem_replicate h, resolve_spec]
  rfl

/-- **C79** (two seeds). All ranks of a lognormal catalog agree on both seeds: the seed as above, and the cosmology seed as given,
or else the seed. -/
theorem resolve2_spec (P : Nat) (seed cosmo : Option Nat) (draw : Nat) :
    resolve2 P seed cosmo draw =
      (List.replicate P (some (seed.getD draw)), List.replicate P (some (cosmo.getD (seed.getD draw)))) := by
  cases seed with
  | some s => cases cosmo <;> simp [resolve2]
  | none =>
    unfold resolve2
    cases P with
    | zero => rfl
    | succ P =>
      dsimp only
      rw [List.range_succ_eq_map]
      cases cosmo <;> simp [bcast, List.replicate_succ, Function.comp_def, List.map_const']

/-- The two recorded seeds give the same seeds again. -/
theorem resolve2_again (P P' : Nat) (seed cosmo : Option Nat) (draw draw' : Nat) :
    resolve2 P' (some (seed.getD draw)) (some (cosmo.getD (seed.getD draw))) draw' =
      (List.replicate P' (some (seed.getD draw)), List.replicate P' (some (cosmo.getD (seed.getD draw)))) := by
  rw [resolve2_spec]; rfl

/-- **C79** (sizes). When all ranks ask for the same positive number of rows, they share the rows without gaps, and all have
the seed. -/
theorem random_parts (P n : Nat) (seed : Option Nat) (draw r : Nat) (hn : n ≠ 0) (hr : r < P) :
    (randomInit (List.replicate P n) seed draw)[r]? = some (.ok ⟨some (seed.getD draw), r * n / P, (r + 1) * n / P⟩) := by
  unfold randomInit
  simp only [List.length_replicate, resolve_spec, List.getElem?_mapIdx]
  have : (List.zip (List.replicate P n) (List.replicate P (some (seed.getD draw))))[r]? = some (n, some (seed.getD draw)) := by
    rw [List.zip_replicate]; simp [hr]
  rw [this]
  simp [hn]

/-- The parts of the ranks together are all rows. -/
theorem parts_cover (P n : Nat) (hP : 0 < P) :
    (0 * n / P = 0 ∧ P * n / P = n) ∧ ((List.range P).map fun r => (r + 1) * n / P - r * n / P).sum = n := by
  have hend : P * n / P = n := Nat.mul_div_cancel_left n hP
  refine ⟨⟨by simp, hend⟩, ?_⟩
  have key : ∀ m, ((List.range m).map fun r => (r + 1) * n / P - r * n / P).sum = m * n / P := by
    intro m
    induction m with
    | zero => simp
    | succ m ih =>
      rw [List.range_succ, List.map_append, List.sum_append, ih]
      have : m * n / P ≤ (m + 1) * n / P := Nat.div_le_div_right (Nat.mul_le_mul_right _ (Nat.le_succ m))
      simp; omega
  rw [key, hend]

/-- **C79** (partial: the seed is given). With a seed the uniform catalog has the same number of rows, drawn with the seed, on any
number of ranks, which share them without gaps. -/
theorem uniform_given_partial (P : Nat) (poisson entropy : Nat → Nat) (s draw r : Nat) (hr : r < P) (hn : poisson s ≠ 0) :
    (uniformInit P poisson entropy (some s) draw)[r]? =
      some (.ok ⟨some s, r * poisson s / P, (r + 1) * poisson s / P⟩) := by
  unfold uniformInit
  have h1 : ((List.range P).map fun r => poisson ((some s).getD (entropy r))) = List.replicate P (poisson s) := by
    simp [List.map_const']
  simp only [h1]
  have h2 := random_parts P (poisson s) (some s) draw r hn hr
  have h3 : (List.zip (List.replicate P (poisson s)) (randomInit (List.replicate P (poisson s)) (some s) draw))[r]? =
      some (poisson s, .ok ⟨some s, r * poisson s / P, (r + 1) * poisson s / P⟩) := by
    rw [List.getElem?_zip_eq_some]
    exact ⟨by simp [hr], h2⟩
  rw [List.getElem?_map, h3]
  simp [hn]

/-- **C79** (negation). Without a seed the ranks draw different numbers of rows: two ranks that draw 1 and 10 end up with 0 and 5
rows, neither 1 nor 10. -/
theorem uniform_none_sizes : ∃ poisson entropy : Nat → Nat, ∃ draw, uniformInit 2 poisson entropy none draw =
    [.ok ⟨some draw, 0, 0⟩, .ok ⟨some draw, 5, 10⟩] :=
  ⟨fun s => if s = 3 then 1 else 10, fun r => if r = 0 then 3 else 4, 7, by decide⟩

/-- **C79** (negation). Without a seed the recorded seed does not give the same catalog again, even on one rank. -/
theorem uniform_none_seed : ∃ poisson entropy : Nat → Nat, ∃ draw draw', uniformInit 1 poisson entropy none draw =
    [.ok ⟨some draw, 0, 1⟩] ∧ uniformInit 1 poisson entropy (some draw) draw' = [.ok ⟨some draw, 0, 10⟩] :=
  ⟨fun s => if s = 3 then 1 else 10, fun _ => 3, 7, 8, by decide⟩

/-- **C79** (negation). Without a seed some ranks can raise while others do not. -/
theorem uniform_none_raise : ∃ poisson entropy : Nat → Nat, ∃ draw, uniformInit 2 poisson entropy none draw =
    [.error .valueError, .ok ⟨some draw, 5, 10⟩] :=
  ⟨fun s => if s = 3 then 0 else 10, fun r => if r = 0 then 3 else 4, 7, by decide⟩

/-- No rows are an error on all ranks. -/
theorem random_zero (P : Nat) (seed : Option Nat) (draw r : Nat) (hr : r < P) :
    (randomInit (List.replicate P 0) seed draw)[r]? = some (.error .valueError) := by
  unfold randomInit
  simp only [List.length_replicate, resolve_spec, List.getElem?_mapIdx, List.zip_replicate]
  simp [hr]

example : uniformInit 3 (fun _ => 10) (fun r => r) (some 5) 9 = [.ok ⟨some 5, 0, 3⟩, .ok ⟨some 5, 3, 6⟩, .ok ⟨some 5, 6, 10⟩] := by
  decide

end NBK.Seeds
