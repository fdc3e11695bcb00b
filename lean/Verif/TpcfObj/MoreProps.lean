import Verif.TpcfObj.CaseProps
set_option linter.unusedSimpArgs false
/-!
# C118: objects on the sky are placed at their comoving distance
-/
namespace NBK.TpcfObj

/-- C118: an object is at its distance in its direction; the weight is kept. -/
theorem place_spec (dist : ℝ → ℝ) (o : SurvPairs.Obj × ℝ) : ((place dist o).pos.x, (place dist o).pos.y, (place dist o).pos.z) =
    (dist o.1.redshift * (Real.cos (o.1.dec * (Real.pi / 180)) * Real.cos (o.1.ra * (Real.pi / 180))),
     dist o.1.redshift * (Real.cos (o.1.dec * (Real.pi / 180)) * Real.sin (o.1.ra * (Real.pi / 180))),
     dist o.1.redshift * Real.sin (o.1.dec * (Real.pi / 180))) ∧ (place dist o).w = o.2 := by
  refine ⟨?_, rfl⟩
  simp only [place, SurvPairs.cartesian, Sky.skyToUnitSphere, Sky.deg2rad, if_true, Prod.mk.injEq]
  exact ⟨rfl, rfl, rfl⟩

end NBK.TpcfObj
