import Verif.Recon.Props
import Mathlib.Algebra.Order.BigOperators.Group.Finset

/-!
# Displacements read at the objects (C142): between those of the cells
-/
namespace NBK.Recon
open NBK
open scoped BigOperators

/-- C142: with a window that is not negative and adds up to 1, every component of the displacement of every object is between the bounds of that component in the
cells. With equal bounds: a uniform displacement is read everywhere as it is. -/
theorem solve_between {n m : Nat} (share : V3 → Fin n → ℚ) (h0 : ∀ p c, 0 ≤ share p c) (h1 : ∀ p, ∑ c, share p c = 1) (t : Fft n m) (a : Attrs) (smooth : ℚ → ℚ)
    (delta : Fin m → Cx) (cat : List (List V3)) (lo hi : V3)
    (hb : ∀ d c, lo d ≤ t.c2r (fun q => kernel a smooth d (t.k q) (delta q)) c ∧ t.c2r (fun q => kernel a smooth d (t.k q) (delta q)) c ≤ hi d) :
    ∀ r ∈ solve share t a smooth delta cat, ∀ s ∈ r, ∀ d, lo d ≤ s d ∧ s d ≤ hi d := by
  intro r hr s hs d
  unfold solve at hr
  obtain ⟨l, _, rfl⟩ := List.mem_map.mp hr
  obtain ⟨p, _, rfl⟩ := List.mem_map.mp hs
  unfold readout
  constructor
  · calc lo d = (∑ c, share p c) * lo d := by rw [h1, one_mul]
      _ = ∑ c, share p c * lo d := by rw [Finset.sum_mul]
      _ ≤ _ := Finset.sum_le_sum fun c _ => mul_le_mul_of_nonneg_left (hb d c).1 (h0 p c)
  · calc _ ≤ ∑ c, share p c * hi d := Finset.sum_le_sum fun c _ => mul_le_mul_of_nonneg_left (hb d c).2 (h0 p c)
      _ = (∑ c, share p c) * hi d := by rw [Finset.sum_mul]
      _ = hi d := by rw [h1, one_mul]

/-- C142: the hypotheses of `solve_between` hold: two cells of which each object has half. -/
theorem between_case (a : Attrs) : ∃ (share : V3 → Fin 2 → ℚ) (t : Fft 2 1), (∀ p c, 0 ≤ share p c) ∧ (∀ p, ∑ c, share p c = 1) ∧
    (∀ d c, (1 : ℚ) ≤ t.c2r (fun q => kernel a (fun _ => 1) d (t.k q) ⟨1, 0⟩) c ∧ t.c2r (fun q => kernel a (fun _ => 1) d (t.k q) ⟨1, 0⟩) c ≤ 3) ∧
    (solve share t a (fun _ => 1) (fun _ => ⟨1, 0⟩) [[fun _ => 0]]).map (fun r => r.map fun s => s 0) = [[2]] := by
  refine ⟨fun _ _ => 1 / 2, ⟨fun _ _ => ⟨0, 0⟩, fun _ c => if c = 0 then 1 else 3, fun _ _ => 0⟩, fun _ _ => by norm_num, fun _ => by simp, ?_, ?_⟩
  · intro d c
    dsimp only
    split_ifs <;> norm_num
  · unfold solve readout
    simp [Fin.sum_univ_two]
    norm_num

end NBK.Recon
