import Mathlib.Analysis.SpecialFunctions.Trigonometric.Basic
import Mathlib.Analysis.SpecialFunctions.Exp

/-!
# Model of the filters (nbodykit/filters.py)

One mode: its wavenumbers along the axes and its value.  Real numbers in place of floats; 0/0 is `none` (nan).
-/
noncomputable section
namespace NBK.Filters

/-- `sum(ki ** 2 for ki in k)` -/
def norm2 (k : List ℝ) : ℝ := (k.map (· ^ 2)).sum

open Classical in
/-- The factor `w` of `TopHat.filter` (filters.py 27-33). -/
def tophat (r : ℝ) (k : List ℝ) : Option ℝ :=
  let k := Real.sqrt (norm2 k)
  let kr := k * r
  if k = 0 then some 1
  else if kr = 0 then none
  else some (3 * (Real.sin kr / kr ^ 3 - Real.cos kr / kr ^ 2))

/-- `TopHat.filter(k, v)` (filters.py 27-33). -/
def tophatFilter (r : ℝ) (k : List ℝ) (v : ℂ) : Option ℂ := (tophat r k).map fun (w : ℝ) => (w : ℂ) * v

/-- The factor of `Gaussian.filter` (filters.py 55-58). -/
def gaussian (r : ℝ) (k : List ℝ) : ℝ := Real.exp (-0.5 * norm2 k * r ^ 2)

/-- `Gaussian.filter(k, v)` (filters.py 55-58). -/
def gaussianFilter (r : ℝ) (k : List ℝ) (v : ℂ) : ℂ := (gaussian r k : ℂ) * v

end NBK.Filters
