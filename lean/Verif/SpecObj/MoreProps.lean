import Verif.SpecObj.MeshProps
import Mathlib.Tactic.Linarith
set_option linter.unusedSimpArgs false
/-!
# C116: vectors of different lengths, and the rounding of mesh sizes
-/
namespace NBK.SpecObj

/-- C116: vectors of different lengths agree only if one is a single number repeated in the other. -/
theorem equal_lengths (l l' : List ℚ) (h : l.length ≠ l'.length) : equalAll (.vec l) (.vec l') = some true ↔
    (∃ x, l = [x] ∧ ∀ y ∈ l', x = y) ∨ ∃ y, l' = [y] ∧ ∀ x ∈ l, x = y := by
  unfold equalAll
  dsimp only
  rw [if_neg h]
  match l, l' with
  | [x], l' =>
    have h1 : ∀ y, l' ≠ [y] := fun y hy => h (by rw [hy]; rfl)
    simp only [Option.some.injEq, List.all_eq_true, beq_iff_eq]
    constructor
    · intro ha
      exact Or.inl ⟨x, rfl, ha⟩
    · rintro (⟨x', hx, ha⟩ | ⟨y, hy, _⟩)
      · injection hx with hx
        rw [hx]
        exact ha
      · exact absurd hy (h1 y)
  | [], [y] =>
    simp
  | a :: b :: l, [y] =>
    simp only [Option.some.injEq, List.all_eq_true, beq_iff_eq]
    constructor
    · intro ha
      exact Or.inr ⟨y, rfl, ha⟩
    · rintro (⟨x', hx, ha⟩ | ⟨y', hy, ha⟩)
      · cases hx
      · injection hy with hy
        rw [hy]
        exact ha
  | [], [] => exact absurd rfl h
  | [], a :: b :: l' => simp
  | a :: b :: l, [] => simp
  | a :: b :: l, c :: d :: l' => simp

/-- C116: a mesh size is rounded towards zero. -/
theorem meshVec_num (x : ℚ) : ∃ k : Int, meshVec (.num x) = .ok [k, k, k] ∧ |(k : ℚ)| ≤ |x| ∧ |x| < |(k : ℚ)| + 1 ∧ 0 ≤ x * k := by
  by_cases h : 0 ≤ x
  · refine ⟨⌊x⌋, ?_, ?_, ?_, ?_⟩
    · unfold meshVec
      dsimp only
      rw [if_pos h]
      rfl
    all_goals
      have h0 : (0 : ℚ) ≤ ⌊x⌋ := by exact_mod_cast Int.floor_nonneg.mpr h
      have h1 := Int.floor_le x
      have h2 := Int.lt_floor_add_one x
    · rw [abs_of_nonneg h0, abs_of_nonneg h]; exact h1
    · rw [abs_of_nonneg h0, abs_of_nonneg h]; exact h2
    · exact mul_nonneg h h0
  · have hx : x ≤ 0 := le_of_lt (not_le.mp h)
    refine ⟨⌈x⌉, ?_, ?_, ?_, ?_⟩
    · unfold meshVec
      dsimp only
      rw [if_neg h]
      rfl
    all_goals
      have h0 : ((⌈x⌉ : Int) : ℚ) ≤ 0 := by exact_mod_cast Int.ceil_le.mpr (by exact_mod_cast hx)
      have h1 := Int.le_ceil x
      have h2 := Int.ceil_lt_add_one x
    · rw [abs_of_nonpos h0, abs_of_nonpos hx]; linarith
    · rw [abs_of_nonpos h0, abs_of_nonpos hx]; linarith
    · exact mul_nonneg_of_nonpos_of_nonpos hx h0

end NBK.SpecObj
