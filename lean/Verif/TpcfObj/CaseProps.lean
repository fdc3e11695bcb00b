import Verif.TpcfObj.Props
import Mathlib.Tactic.NormNum

set_option linter.unusedSimpArgs false

/-! C118: cases that meet the hypotheses. -/
noncomputable section
namespace NBK.TpcfObj
open Tpcf (Vec Obj Result)

open Classical in
/-- A tree that hands over all neighbours in one bunch. -/
def oneBunch : Enum := fun box _ rmax sec p => [sec.filter fun s => Tpcf.sep (Ylm.tpcfEnv box []) p s ≤ rmax]

theorem oneBunch_ok : KdOk oneBunch := by
  intro box edges bunch rmax sec p _ _ _
  simp only [oneBunch, List.flatten_cons, List.flatten_nil, List.append_nil]
  exact List.Perm.of_eq (List.filter_congr fun s _ => decide_eq_decide.mpr Iff.rfl)

/-- Two places, 9 apart in a box of 10. -/
def exA : Vec ℝ := ⟨0, 0, 0⟩
def exB : Vec ℝ := ⟨9, 0, 0⟩

/-- A catalog on two ranks: ten objects at each place. -/
def exSrc : Source where
  vec := [("Position", [List.replicate 10 exA, List.replicate 10 exB])]
  num := [("Weight", [List.replicate 10 1, List.replicate 10 2]), ("RA", [List.replicate 20 10]), ("DEC", [List.replicate 20 20]),
    ("Redshift", [List.replicate 20 (1 / 2)]), ("Value", [List.replicate 20 3])]
  box := some (.vec [10, 10, 10])

theorem ex_binning : Binning [0, 2] [1 / 2, 3 / 2] := by
  refine ⟨by simp, by simp, by simp, ?_, ?_⟩
  · simp; norm_num
  · intro e he
    simp only [List.mem_cons, List.not_mem_nil, or_false] at he
    rcases he with rfl | rfl <;> norm_num

/-- The objects of the case. -/
def exRows : List (List (Obj ℝ)) := [List.replicate 10 ⟨exA, 1⟩, List.replicate 10 ⟨exB, 2⟩]

theorem exRows_eq : rows [List.replicate 10 exA, List.replicate 10 exB] [List.replicate 10 1, List.replicate 10 2] = exRows := rfl

theorem ex_max : SurvPairs.maxOf [1 / 2, 3 / 2] = (3 / 2 : ℝ) := by
  simp only [SurvPairs.maxOf, List.foldl_cons, List.foldl_nil]
  norm_num

/-- The hypotheses of `sim_spec_partial` are met, on two ranks. -/
theorem sim_case : ∃ out, simBox oneBunch (2, 1, 1) exSrc [0, 2] [1 / 2, 3 / 2] none (some true) "Weight" "Position" = .ok out ∧
    Multipoles (some ⟨10, 10, 10⟩) [1 / 2, 3 / 2] [0, 2] (images ⟨10, 10, 10⟩ true exRows.flatten) out.poles := by
  have hv : verifyBox exSrc.box none = .ok ⟨10, 10, 10⟩ :=
    (box_spec 10 10 10 10 (fun h => by have := congrArg Vec.x h; norm_num at this) (by norm_num)).1
  obtain ⟨out, h1, _, _, _, h2⟩ := sim_spec_partial oneBunch oneBunch_ok (2, 1, 1) exSrc [0, 2] [1 / 2, 3 / 2] ex_binning none true
    "Weight" "Position" [List.replicate 10 exA, List.replicate 10 exB] [List.replicate 10 1, List.replicate 10 2] rfl rfl
    ⟨10, 10, 10⟩ hv (by norm_num) (by norm_num) (by norm_num) (fun _ => by rw [ex_max]; simp [boxMin]; norm_num)
    (by rw [exRows_eq]; simp [exRows]) (by rw [exRows_eq]; simp [exRows]) (Or.inr (by rw [exRows_eq]; simp [exRows]))
  exact ⟨out, h1, h2⟩

/-- The triangles of the case are across the border of the box. -/
theorem ex_sep : Tpcf.sep (Ylm.tpcfEnv (some ⟨10, 10, 10⟩) [1 / 2, 3 / 2]) ⟨exA, 1⟩ ⟨exB, 2⟩ = 1 := by
  have e : Tpcf.dposOf (some (⟨10, 10, 10⟩ : Vec ℝ)) ⟨exA, 1⟩ ⟨exB, 2⟩ = ⟨-1, 0, 0⟩ := by
    simp only [Tpcf.dposOf, Tpcf.wrapAxis, exA, exB]
    norm_num
  unfold Tpcf.sep
  rw [show (Ylm.tpcfEnv (some ⟨10, 10, 10⟩) [1 / 2, 3 / 2]).box = some (⟨10, 10, 10⟩ : Vec ℝ) from rfl, e]
  simp [Ylm.tpcfEnv]

/-- The hypotheses of `survey_spec_partial` are met. -/
theorem survey_case : ∃ out, survey oneBunch (fun _ => 1) (fun _ _ _ => 0) exSrc [0, 2] [1 / 2, 3 / 2] (some fun z => 3 * z) 2
    "RA" "DEC" "Redshift" "Value" = .ok out ∧ Multipoles none [1 / 2, 3 / 2] [0, 2]
      (List.replicate 20 (place (fun z => 3 * z) (⟨10, 20, 1 / 2, 0⟩, 3))) out.poles := by
  have hr : skyRows [List.replicate 20 10] [List.replicate 20 20] [List.replicate 20 (1 / 2)] [List.replicate 20 3] =
      [List.replicate 20 (⟨10, 20, 1 / 2, 0⟩, 3)] := rfl
  obtain ⟨out, h1, _, h2⟩ := survey_spec_partial oneBunch oneBunch_ok (fun _ => 1) (fun _ _ _ => 0) exSrc [0, 2] [1 / 2, 3 / 2]
    ex_binning (fun z => 3 * z) 2 "RA" "DEC" "Redshift" "Value" _ _ _ _ rfl rfl rfl rfl (by rw [hr]; simp) (Or.inr (by rw [hr]; simp))
  rw [hr] at h2
  refine ⟨out, h1, ?_⟩
  simpa using h2

/-- The hypotheses of `few_objects` are met: three objects. -/
example : runBox oneBunch ⟨10, 10, 10⟩ true (1, 1, 1) false [0] [1 / 2, 3 / 2] [List.replicate 3 ⟨exA, 1⟩] = .error .zeroDivision :=
  few_objects oneBunch ⟨10, 10, 10⟩ (by norm_num) (by norm_num) (by norm_num) true (1, 1, 1) false [0] (by simp) _ (by simp) _ rfl
    (by simp) (by simp)

end NBK.TpcfObj
