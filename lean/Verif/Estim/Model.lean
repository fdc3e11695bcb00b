import Verif.Pairs.BoxProps
import Verif.Binned.AverageProps
import Mathlib.Analysis.SpecialFunctions.Trigonometric.Basic

/-!
# Model of the two-point estimators (nbodykit/algorithms/paircount_tpcf/estimators.py and tpcf.py)

A pair count is its normalisation `attrs['total_wnpairs']` and, per bin, `npairs` and `wnpairs`; the bins are
flattened.  Catalogs are referred to by number, since `PairCountBase` treats `second is first` like `second=None`.
Floats are exact; a division by zero (numpy: `inf` or NaN) is `none`.
-/
namespace NBK.Estim

abbrev Val := Option ℚ

/-- A pair count: `attrs['total_wnpairs']`, and `pairs['npairs']`, `pairs['wnpairs']`. -/
structure PC where
  total : ℚ
  rows : List (Nat × ℚ)
  deriving DecidableEq, Repr

/-- Division of floats. -/
def fdiv (a b : ℚ) : Val := if b = 0 then none else some (a / b)

/-- The Landy-Szalay formula of one bin: `(fDD * DD - fDR * DR - fRD * RD)/RR + 1` where there are random pairs,
otherwise NaN (estimators.py 193-215). -/
def lsBin (tDD tDR tRD tRR DD DR RD : ℚ) (RR : Nat × ℚ) : Val :=
  if RR.1 > 0 then do
    let fDD ← fdiv tRR tDD
    let fDR ← fdiv tRR tDR
    let fRD ← fdiv tRR tRD
    let xi ← fdiv (fDD * DD - fDR * DR - fRD * RD) RR.2
    pure (xi + 1)
  else none

/-- What `LandySzalayEstimator` returns: `D1D2, D1R2, D2R1, R1R2, CF` (estimators.py 224-225). -/
structure LS where
  d1d2 : PC
  d1r2 : PC
  d2r1 : PC
  r1r2 : PC
  cf : List Val
  deriving DecidableEq, Repr

/-- `LandySzalayEstimator` (estimators.py 142-232); `count first second` is the pair counter on catalogs given by
number. -/
def landySzalay (count : Nat → Option Nat → PC) (data1 : Nat) (data2 : Option Nat) (randoms1 : Nat)
    (randoms2 : Option Nat) (given : Option PC) : LS :=
  let randoms2 := randoms2.getD randoms1
  let R1R2 := given.getD (count randoms1 (some randoms2))
  let D1D2 := count data1 data2
  let D1R2 := count data1 (some randoms2)
  let D2R1 := data2.elim D1R2 fun d => count d (some randoms1)
  ⟨D1D2, D1R2, D2R1, R1R2,
    ((D1D2.rows.zip (D1R2.rows.zip (D2R1.rows.zip R1R2.rows))).map fun p =>
      lsBin D1D2.total D1R2.total D2R1.total R1R2.total p.1.2 p.2.1.2 p.2.2.1.2 p.2.2.2)⟩

/-! ### Pair counts of catalogs -/

/-- A catalog: on every rank the objects with their weights. -/
abbrev Cat (A : Type) := List (List (A × ℚ))

/-- The counts of a bin: `npairs` and `wnpairs` as in C48. -/
def binCount {A : Type} (bin : A → A → Option Nat) (X Y : List (A × ℚ)) (b : Nat) : Nat × ℚ :=
  ((X.map fun a => Y.countP fun c => bin a.1 c.1 = some b).sum,
   (X.map fun a => (Y.map fun c => if bin a.1 c.1 = some b then a.2 * c.2 else 0).sum).sum)

/-- `pair_counter(first, second)` with `n` bins: counts (C48) and normalisation (C49, base.py 51-60). -/
def counter {A : Type} (n : Nat) (bin : A → A → Option Nat) (cats : Nat → Cat A) (first : Nat) (second : Option Nat) :
    PC :=
  let w := fun i => (cats i).map fun l => l.map Prod.snd
  let sec := second.getD first
  ⟨Pairs.totalWnpairs (w first) (second.elim .none fun j => if j = first then .same else .other (w j)),
   (List.range n).map (binCount bin (cats first).flatten (cats sec).flatten)⟩

/-! ### The natural estimator -/

/-- `AnalyticUniformRandoms.__call__` (estimators.py 112-140) from the filling factors: `(total_wnpairs, wnpairs)`. -/
def analytic (ff : List ℚ) (NR1 : ℚ) (NR2 : Option ℚ) : ℚ × List ℚ :=
  NR2.elim (NR1 * (NR1 - 1) * (1 / 2), ff.map fun f => NR1 ^ 2 * f)
    fun NR2 => (NR1 * NR2 * (1 / 2), ff.map fun f => NR1 * NR2 * f)

/-- `NaturalEstimator` (estimators.py 234-264): `DD * fDD / RR - 1`. `N2` is `none` for an auto-correlation. -/
def natural (ff : List ℚ) (N1 : ℚ) (N2 : Option ℚ) (dd : PC) : List Val :=
  let rr := analytic ff N1 N2
  (dd.rows.zip rr.2).map fun p => do
    let fDD ← fdiv rr.1 dd.total
    let q ← fdiv (p.1.2 * fDD) p.2
    pure (q - 1)

/-! ### Filling factors (estimators.py 76-110); `π` is a parameter where only products with it occur -/

/-- `numpy.diff`. -/
def diff (l : List ℚ) : List ℚ := List.zipWith (fun a b => b - a) l l.tail

/-- mode '1d' (estimators.py 84-88). -/
def ff1d (π vol : ℚ) (r : List ℚ) : List ℚ := (diff (r.map fun x => 4 / 3 * π * x ^ 3)).map fun v => v / vol

/-- `numpy.diff(numpy.diff(outer(f, g), axis=0), axis=1) / vol`. -/
def outerDiff (vol : ℚ) (f g : List ℚ) : List (List ℚ) :=
  let V := f.map fun a => g.map fun b => a * b
  (List.zipWith (fun v w => List.zipWith (fun a b => b - a) v w) V V.tail).map fun row => (diff row).map fun v => v / vol

/-- mode '2d' (estimators.py 91-96): `2/3 π outer(r³, μ)`, doubled. -/
def ff2d (π vol : ℚ) (r mu : List ℚ) : List (List ℚ) :=
  outerDiff vol (r.map fun x => 2 / 3 * π * x ^ 3 * 2) mu

/-- mode 'projected' (estimators.py 99-103): `π outer(rp², 2 pi)`. -/
def ffProj (π vol : ℚ) (rp pi : List ℚ) : List (List ℚ) :=
  outerDiff vol (rp.map fun x => π * x ^ 2) (pi.map fun x => 2 * x)

/-- The area of a spherical cap of opening angle `θ` (in radians) as in mode 'angular' (estimators.py 105-110). -/
noncomputable def capArea (θ : ℝ) : ℝ :=
  let chord := 2 * Real.sin (1 / 2 * θ)
  let h := 1 - Real.sqrt (1 - chord ^ 2)
  Real.pi * (chord ^ 2 + h ^ 2)

/-! ### wp and multipoles -/

/-- `_compute_wp`: `(2*corr*dpi).sum(axis=-1)` of one row (tpcf.py 420-431). -/
def wp (corr : List Val) (piEdges : List ℚ) : Val :=
  ((corr.zip (diff piEdges)).map fun p => p.1.map fun c => 2 * c * p.2).foldl
    (fun a b => a.bind fun x => b.map fun y => x + y) (some 0)

/-- `numpy.linspace(0, pimax, int(pimax+1))`, the edges of the line-of-sight bins (theory.py 113, mocks.py 104). -/
def piEdges (pimax : ℚ) : List ℚ :=
  let n := (pimax + 1).floor.toNat
  (List.range n).map fun (i : Nat) => pimax * i / (n - 1 : Nat)

/-- The result object of `_compute_wp` (tpcf.py 475-490): `corr.average('pi')`, for which `fields_to_sum` is empty. -/
def wpObject {A : Type} (oldNumpy : Bool) (world : Binned.World) (corr : Binned.BS A) :
    Except Binned.Err (Binned.BS A) :=
  (Binned.averageCall oldNumpy world corr (corr.dims.getLastD "") .none true none).2.2

/-- `WedgeBinnedStatistic.to_poles`, one row and one multipole with Legendre polynomial `leg` (estimators.py 30-50). -/
def pole (ell : Nat) (leg : ℚ → ℚ) (corr : List Val) (mu : List ℚ) : Val :=
  let bins := diff mu
  let mid := List.zipWith (fun a b => (b + a) / 2) mu mu.tail
  let s := ((corr.zip (mid.zip bins)).map fun p => p.1.map fun c => c * ((2 * ell + 1) * leg p.2.1) * p.2.2).foldl
    (fun a b => a.bind fun x => b.map fun y => x + y) (some 0)
  s.bind fun v => fdiv v bins.sum

end NBK.Estim
