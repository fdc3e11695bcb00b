import Verif.Ylm.Model

/-!
# Model of `WedgeBinnedStatistic.to_poles` (nbodykit/algorithms/paircount_tpcf/estimators.py 10-51)

Real numbers; the Legendre polynomials of scipy are those of `Verif.Ylm.Model`.  A column of separations may contain nan
(`none`).
-/
noncomputable section
namespace NBK.Multipoles
open Polynomial

/-- Numpy refuses a type with two columns of the same name (ValueError). -/
inductive Err where
  | valueError
  deriving DecidableEq, Repr

/-- The measured wedges: the edges in `mu`, and for every bin of separation the columns `corr` and the separation. -/
structure Wedges where
  mu : List ℝ
  corr : List (List ℝ)
  x : List (List (Option ℝ))

/-- `mu_bins` (estimators.py 40). -/
def muBins (mu : List ℝ) : List ℝ := List.zipWith (fun a b => b - a) mu mu.tail

/-- `mu_mid` (estimators.py 41). -/
def muMid (mu : List ℝ) : List ℝ := List.zipWith (fun a b => (b + a) / 2) mu mu.tail

/-- `numpy.sum(self['corr']*legendrePolynomial*mu_bins, axis=-1)` of one row (estimators.py 44-45). -/
def poleSum (ell : Nat) (corr mu : List ℝ) : ℝ :=
  (List.zipWith (· * ·) (List.zipWith (· * ·) corr ((muMid mu).map fun m => (2 * ell + 1) * (Ylm.legendre ell).eval m))
    (muBins mu)).sum

/-- `corr_ell` of one row (estimators.py 44-45). -/
def pole (ell : Nat) (corr mu : List ℝ) : ℝ := poleSum ell corr mu / (muBins mu).sum

/-- `numpy.mean(self[x], axis=-1)` of one row (estimators.py 47): nan if there is any. -/
def meanX (row : List (Option ℝ)) : Option ℝ :=
  if row.length = 0 then none
  else (row.foldl (fun a b => a.bind fun s => b.map fun v => s + v) (some 0)).map (· / row.length)

/-- A row of the result. -/
structure Row where
  x : Option ℝ
  corr : List (Nat × ℝ)

/-- `WedgeBinnedStatistic.to_poles` (estimators.py 10-51). -/
def toPoles (w : Wedges) (poles : List Nat) : Except Err (List Row) :=
  if poles.Nodup then
    .ok (List.zipWith (fun c x => ⟨meanX x, poles.map fun ell => (ell, pole ell c w.mu)⟩) w.corr w.x)
  else .error .valueError

end NBK.Multipoles
