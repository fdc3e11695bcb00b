import Verif.PcfObj.Model
import Verif.SurvPairs.Model

/-!
# Model of `SurveyData2PCF` from the objects on the sky to the correlation function, on any number of ranks

The pair counts of `SurveyDataPairCount` (`Verif.SurvPairs`: algorithms/pair_counters/mocksurvey.py, domain.py, corrfunc/mocks.py) of distributed
catalogs, put into the objects of `Verif.PcfObj` (algorithms/paircount_tpcf/). Positions and separations are real, weights and edges rational; what
Corrfunc averages is a rational number `rat` of the real separation. The catalogs live on one communicator and have the columns asked for. A survey
that is given the keyword `periodic` is counted as a box (see `Verif.PcfObj`) and left to the surrounding `Env`.
-/
noncomputable section
namespace NBK.SurvTpcf

open Sky (Vec)

abbrev Obj := SurvPairs.Obj
abbrev Err := PcfObj.Err
abbrev Bins := PcfObj.Bins

/-- A catalog: the rows on every rank. -/
abbrev Cat := List (List Obj)

/-- What the ranks do: the order of the reduction, `split_size_3d(comm.size)` and the outcome of `loadbalance` (domain.py 190, 249-257). -/
structure Mach where
  tree : Pairs.Tree
  np : Nat → Nat
  rank : Nat → Nat → Nat → Nat

/-- What `SurveyData2PCF` is given besides the catalogs and bins: the comoving distances of `cosmo`, `domain_factor` (one of `config`) and
`show_progress` (tpcf.py 416-419, mocksurvey.py 94-99). -/
structure Kw where
  cosmo : Option (ℝ → ℝ) := none
  factor : Nat := 4
  showProgress : Bool := false

/-- The cosine of the angle between the separation of a pair and its mean line of sight. -/
def muOf (a b : Vec) : ℝ := SurvPairs.los a b / SurvPairs.sep a b

/-- The bin of `mu` among `n`: `mu_edges` (mocks.py 64); `mu_max` itself is in no bin. -/
def muBin (n : Nat) (a b : Vec) : Option Nat := SurvPairs.sepBin ((PcfObj.linspace 0 1 (n + 1)).map fun q : ℚ => (q : ℝ)) (muOf a b)

/-- The mode, with one bin of `mu` for '1d' (mocksurvey.py 151, 171-182). -/
def modeOf (b : Bins) : SurvPairs.Mode :=
  if b.mode = "1d" then .d1 (muBin 1)
  else if b.mode = "2d" then .d2 (b.Nmu.getD 0) (muBin (b.Nmu.getD 0))
  else if b.mode = "projected" then .projected ((b.pimax.getD 0 : ℚ) : ℝ)
  else .angular

/-- The edges of the first dimension. -/
def edges (b : Bins) : List ℝ := b.edges.map fun q : ℚ => (q : ℝ)

/-- What Corrfunc averages: `savg`, `rpavg` or `thetaavg` (mocks.py 55, 78, 95). -/
def sepOf (mode : SurvPairs.Mode) (a b : Vec) : ℝ :=
  match mode with
  | .projected _ => SurvPairs.perp a b
  | .angular => SurvPairs.angle a b
  | _ => SurvPairs.sep a b

/-- The distances that are used (domain.py 200-203). -/
def distOf (k : Kw) (b : Bins) : Option (ℝ → ℝ) := if (modeOf b).isAngular then none else k.cosmo

/-- The weights of a catalog on every rank. -/
def weights (c : Cat) : List (List ℚ) := c.map fun l => l.map SurvPairs.Obj.weight

/-- A value of the output array. -/
def val : Option ℚ → Binned.Val
  | some q => .fin q
  | none => .nan

/-- `SurveyDataPairCount(mode, first, edges, cosmo, second, Nmu, pimax, ...)` (mocksurvey.py 94-190, base.py 11-60): `same` tells whether `second` is
`first`. Corrfunc leaves the averages of an empty bin at zero. -/
def countSurv (rat : ℝ → ℚ) (M : Mach) (k : Kw) (b : Bins) (first : Cat) (second : Option Cat) (same : Bool) : Except Err PcfObj.Count :=
  match SurvPairs.surveyPairs (modeOf b) (edges b) k.cosmo k.factor M.np M.rank
      (fun p q => rat (sepOf (modeOf b) (SurvPairs.cartesian (distOf k b) p) (SurvPairs.cartesian (distOf k b) q)))
      (Pairs.sepColumn (modeOf b).name) (some 0) k.showProgress M.tree first second with
  | .error _ => .error .valueError
  | .ok out => .ok
    { total := Pairs.totalWnpairs (weights first) (if same then .same else second.elim .none fun c => .other (weights c))
      isCross := second.isSome && !same
      sep := out.rows.map fun o => val o.x
      rows := out.rows.map fun o => (o.npairs, o.wnpairs.getD 0) }

/-- The surroundings of a `SurveyData2PCF` of the catalogs `C` (tpcf.py 416-429). -/
def envOf (E : PcfObj.Env) (rat : ℝ → ℚ) (mach : Nat → Option Nat → Mach) (k : Kw) (C : Nat → Cat) : PcfObj.Env :=
  { E with
    count := fun c b i j => if c = .survey then countSurv rat (mach i j) k b (C i) (j.map C) (decide (j = some i)) else E.count c b i j
    csize := fun i => ((C i).map List.length).sum }

/-- `SurveyData2PCF(mode, data1, randoms1, edges, ...)` of catalogs (tpcf.py 416-470). -/
def tpcf (E : PcfObj.Env) (rat : ℝ → ℚ) (mach : Nat → Option Nat → Mach) (k : Kw) (C : Nat → Cat) (g : PcfObj.Args) : Except Err PcfObj.Tpcf :=
  PcfObj.new (envOf E rat mach k C) g

end NBK.SurvTpcf
