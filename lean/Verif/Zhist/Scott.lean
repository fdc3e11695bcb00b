import Mathlib.Analysis.SpecialFunctions.Pow.Real
import Mathlib.Analysis.SpecialFunctions.Trigonometric.Basic

/-!
# Model of `scotts_bin_width` (nbodykit/algorithms/zhist.py 210-253) with real numbers

Here the width of the bins is not a parameter but that of Scott's rule, with the real roots and pi.  The redshifts of all ranks are a list of lists.  Rounding is left out; what is proved of integers
and pi (that no redshift falls on the last edge) is a statement of the exact rule only.
-/
namespace NBK.Zhist.Scott

/-- `csum` (zhist.py 238): `data.sum()` of the ranks, added. -/
noncomputable def csum (D : List (List ℝ)) : ℝ := (D.map List.sum).sum

/-- `csize` (zhist.py 239). -/
def csize (D : List (List ℝ)) : ℕ := (D.map List.length).sum

/-- `cmean` (zhist.py 240). -/
noncomputable def cmean (D : List (List ℝ)) : ℝ := csum D / csize D

/-- `rsum` (zhist.py 243). -/
noncomputable def rsum (D : List (List ℝ)) : ℝ := (D.map fun d => (d.map fun x => |x - cmean D| ^ 2).sum).sum

/-- `sigma` (zhist.py 244). -/
noncomputable def sigma (D : List (List ℝ)) : ℝ := Real.sqrt (rsum D / csize D)

/-- `dx` (zhist.py 246). -/
noncomputable def width (D : List (List ℝ)) : ℝ := sigma D * (24 * Real.sqrt Real.pi / csize D) ^ ((1 : ℝ) / 3)

/-- `data.min()` or `data.max()` of one rank (zhist.py 247-248): a `ValueError` (`none`) for an empty array. -/
def extreme (f : ℝ → ℝ → ℝ) : List ℝ → Option ℝ
  | [] => none
  | x :: l => some (l.foldl f x)

/-- `comm.allreduce(..., op=MPI.MIN)` or `MPI.MAX` (zhist.py 247-248); an error of one rank is an error of the call. -/
def reduce (f : ℝ → ℝ → ℝ) : List (List ℝ) → Option ℝ
  | [] => none
  | [d] => extreme f d
  | d :: e :: D => match extreme f d, reduce f (e :: D) with
    | some a, some b => some (f a b)
    | _, _ => none

/-- `Nbins` (zhist.py 250-251): `ceil(0/0)` is NaN and `max(1, NaN)` is 1. -/
noncomputable def nbins (lo hi dx : ℝ) : ℕ := if dx = 0 then 1 else (max 1 ⌈(hi - lo) / dx⌉).toNat

/-- `scotts_bin_width(data, comm)` (zhist.py 210-253); `none` is the `ValueError` of a rank without redshifts. -/
noncomputable def scott (D : List (List ℝ)) : Option (ℝ × List ℝ) :=
  match reduce min D, reduce max D with
  | some lo, some hi => some (width D, (List.range (nbins lo hi (width D) + 1)).map fun k : ℕ => lo + width D * k)
  | _, _ => none

end NBK.Zhist.Scott
