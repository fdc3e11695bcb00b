import Verif.PcfObj.Props

/-!
# The columns of the pair counts, spelled out
-/
namespace NBK.PcfObj
open NBK

/-- C108: the columns of `pairs`: bin for bin the mean separation, the number of pairs (a whole number) and the weighted number of pairs. -/
theorem pairs_columns (c : Counter) (b : Bins) (x : Count) (md : Pairs.Mode) (h : Pairs.checkArgs b.mode b.edges b.Nmu b.pimax = .ok md) :
    ∃ p : BS, pairsOf c b x = .ok p ∧ p.data.map (fun d => d.name) = [p.dims.headD "", "npairs", "wnpairs"] ∧
      p.data.map (fun d => d.int) = [false, true, false] ∧
      p.data.map (fun d => d.vals) = [x.sep, x.rows.map fun r => .fin (r.1 : ℚ), x.rows.map fun r => .fin r.2] := by
  obtain ⟨p, h1, -, -, h2, -⟩ := pairs_spec c b x md h
  exact ⟨p, h1, by rw [h2]; rfl, by rw [h2]; rfl, by rw [h2]; rfl⟩

end NBK.PcfObj
