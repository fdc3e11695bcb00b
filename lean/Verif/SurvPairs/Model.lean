import Verif.Pairs.Model
import Verif.Sky.Model
import Mathlib.Analysis.SpecialFunctions.Trigonometric.Inverse

/-!
# Model of the pair counts of survey data (algorithms/pair_counters/mocksurvey.py, domain.py)

All ranks at once.  Positions are real numbers.  Corrfunc and pmesh are external: the bins of Corrfunc are those of the
separations defined below, and the decomposition of `GridND` sends an object to the ranks of the cells which the cube of
half-width `smoothing` around it touches.
-/
noncomputable section
namespace NBK.SurvPairs
open Sky (Vec)

/-- A row of a survey catalog: `RA` and `DEC` in degrees, `Redshift`, `Weight`. -/
structure Obj where
  ra : ℝ
  dec : ℝ
  redshift : ℝ
  weight : ℚ

/-- The modes, with the bins of the second coordinate: any function for mu (`m` bins, one for '1d'), `pimax` for 'projected'. -/
inductive Mode where
  | d1 (mu : Vec → Vec → Option Nat)
  | d2 (m : Nat) (mu : Vec → Vec → Option Nat)
  | projected (pimax : ℝ)
  | angular

def Mode.isAngular : Mode → Bool
  | .angular => true
  | _ => false

/-- The separation column of a mode, for the labels of Corrfunc (mocks.py 55, 79, 95). -/
def Mode.name : Mode → Pairs.Mode
  | .d1 _ => .d2
  | .d2 _ _ => .d2
  | .projected _ => .projected
  | .angular => .angular

/-- `numpy.max(edges)` of positive edges (mocksurvey.py 155). -/
def maxEdge (edges : List ℝ) : ℝ := edges.foldl max 0

/-- `smoothing` (mocksurvey.py 154-159). -/
def smoothing (mode : Mode) (edges : List ℝ) : ℝ :=
  match mode with
  | .projected pimax => Real.sqrt (maxEdge edges ^ 2 + pimax ^ 2)
  | .angular => 2 * Real.sin (0.5 * Sky.deg2rad (maxEdge edges))
  | _ => maxEdge edges

/-- `cpos` of `get_cartesian` (domain.py 287-308): on the unit sphere without a cosmology; `dist` is the comoving distance. -/
def cartesian (dist : Option (ℝ → ℝ)) (o : Obj) : Vec :=
  let u := Sky.skyToUnitSphere o.ra o.dec true
  match dist with
  | some r => r o.redshift • u
  | none => u

/-- The coordinate of a vector along an axis. -/
def comp (axis : Nat) (v : Vec) : ℝ := if axis = 0 then v.x else if axis = 1 then v.y else v.z

/-- `get_data_bounds` along an axis (domain.py 311), the least and the largest coordinate on all ranks; 0 for no objects at all. -/
def minOf : List ℝ → ℝ
  | [] => 0
  | x :: l => l.foldl min x
def maxOf : List ℝ → ℝ
  | [] => 0
  | x :: l => l.foldl max x

/-- The bounds returned by `get_cartesian` along an axis (domain.py 311-318). -/
def bounds (coords : List ℝ) : ℝ × ℝ :=
  let lo := minOf coords
  let hi := maxOf coords
  let boxsize := |hi - lo|
  (lo - 1e-3 * boxsize, hi + 1e-3 * boxsize)

/-- `cpos_min`, `cpos_max` (domain.py 233-239). -/
def globalBounds (c1 : List ℝ) (c2 : Option (List ℝ)) : ℝ × ℝ :=
  match c2 with
  | none => bounds c1
  | some c2 => (min (bounds c1).1 (bounds c2).1, max (bounds c1).2 (bounds c2).2)

/-- Item `i` of `numpy.linspace(lo, hi, n + 1)` (domain.py 249-253). -/
def edge (b : ℝ × ℝ) (n i : Nat) : ℝ := b.1 + (b.2 - b.1) * i / n

open Classical in
/-- The cell of a coordinate among `n`: the number of inner edges not above it. -/
def cell (b : ℝ × ℝ) (n : Nat) (x : ℝ) : Nat := (List.range (n - 1)).countP fun i => edge b n (i + 1) ≤ x

/-- The domain: bounds and number of cells along the axes, and the rank of each cell after `loadbalance` (domain.py 249-257). -/
structure Domain where
  b : Nat → ℝ × ℝ
  n : Nat → Nat
  rank : Nat → Nat → Nat → Nat

/-- The rank of a primary: `domain.decompose(cpos1, smoothing=0)` (domain.py 268-270). -/
def Domain.owner (d : Domain) (v : Vec) : Nat :=
  d.rank (cell (d.b 0) (d.n 0) v.x) (cell (d.b 1) (d.n 1) v.y) (cell (d.b 2) (d.n 2) v.z)

/-- The cells along an axis which an interval touches. -/
def cells (b : ℝ × ℝ) (n : Nat) (x s : ℝ) : List Nat :=
  (List.range (cell b n (x + s) + 1)).filter fun i => cell b n (x - s) ≤ i

/-- The ranks of a secondary: `domain.decompose(cpos2, smoothing=smoothing)` (domain.py 277-279). -/
def Domain.ghosts (d : Domain) (s : ℝ) (v : Vec) : List Nat :=
  (cells (d.b 0) (d.n 0) v.x s).flatMap fun i => (cells (d.b 1) (d.n 1) v.y s).flatMap fun j =>
    (cells (d.b 2) (d.n 2) v.z s).map fun k => d.rank i j k

open Classical in
/-- Corrfunc's bin of a separation: `edges[i] <= v < edges[i+1]`. -/
def sepBin (edges : List ℝ) (v : ℝ) : Option Nat :=
  (List.range (edges.length - 1)).find? fun i => decide (edges.getD i 0 ≤ v) && decide (v < edges.getD (i + 1) 0)

/-- The separation of two positions. -/
def sep (a b : Vec) : ℝ := (a - b).norm

/-- The separation along the mean line of sight of a pair. -/
def los (a b : Vec) : ℝ := |(a - b).dot (a + b)| / (a + b).norm

/-- The separation across the mean line of sight. -/
def perp (a b : Vec) : ℝ := Real.sqrt (sep a b ^ 2 - los a b ^ 2)

/-- The angle between two positions, in degrees. -/
def angle (a b : Vec) : ℝ := Sky.rad2deg (Real.arccos (a.dot b / (a.norm * b.norm)))

/-- The number of bins of the second coordinate (mocksurvey.py 151; mocks.py 63-64, 106). -/
def Mode.second : Mode → Option Nat
  | .d1 _ => some 1
  | .d2 m _ => some m
  | .projected pimax => some ⌊pimax⌋.toNat
  | .angular => none

/-- `pi_bins` (mocks.py 106). -/
def piEdges (pimax : ℝ) : List ℝ := (List.range (⌊pimax⌋.toNat + 1)).map fun (i : Nat) => pimax * i / ⌊pimax⌋.toNat

/-- The bin of a pair (mocks.py 19-114, with Corrfunc). -/
def binOf (mode : Mode) (edges : List ℝ) (a b : Vec) : Option Nat :=
  match mode with
  | .d1 mu => Pairs.bin2 1 (sepBin edges (sep a b)) (mu a b)
  | .d2 m mu => Pairs.bin2 m (sepBin edges (sep a b)) (mu a b)
  | .projected pimax => Pairs.bin2 ⌊pimax⌋.toNat (sepBin edges (perp a b)) (sepBin (piEdges pimax) (los a b))
  | .angular => sepBin edges (angle a b)

/-- The coordinates of a distributed catalog along an axis. -/
def coords (dist : Option (ℝ → ℝ)) (axis : Nat) (D : List (List Obj)) : List ℝ := D.flatten.map fun o => comp axis (cartesian dist o)

/-- The domain of the survey data (domain.py 233-257); `np` is `split_size_3d(comm.size)`, `rank` the outcome of
`loadbalance`. -/
def domain (dist : Option (ℝ → ℝ)) (factor : Nat) (np : Nat → Nat) (rank : Nat → Nat → Nat → Nat) (D1 : List (List Obj))
    (D2 : Option (List (List Obj))) : Domain where
  b axis := globalBounds (coords dist axis D1) (D2.map (coords dist axis))
  n axis := factor * np axis
  rank := rank

/-- `self.pairs.squeeze(dim='mu')` for '1d' (mocksurvey.py 188-190). -/
def Mode.squeeze : Mode → Pairs.Pairs → Pairs.Pairs
  | .d1 _, out => { out with shape := out.shape.take 1 }
  | _, out => out

/-- `boxsize.max()` (domain.py 241). -/
def boxMax (d : Domain) : ℝ := max ((d.b 0).2 - (d.b 0).1) (max ((d.b 1).2 - (d.b 1).1) ((d.b 2).2 - (d.b 2).1))

open Classical in
/-- `SurveyDataPairCount` (mocksurvey.py 91-190), with `sepAvg` the separation which is averaged and `junk` Corrfunc's averages
in empty bins.  The last dimension of the result is dropped for '1d'. -/
def surveyPairs (mode : Mode) (edges : List ℝ) (cosmo : Option (ℝ → ℝ)) (factor : Nat) (np : Nat → Nat)
    (rank : Nat → Nat → Nat → Nat) (sepAvg : Obj → Obj → ℚ) (sepCol : String) (junk : Pairs.Val) (showProgress : Bool)
    (tree : Pairs.Tree) (D1 : List (List Obj)) (D2 : Option (List (List Obj))) : Except Pairs.Err Pairs.Pairs :=
  if !mode.isAngular && cosmo.isNone then .error .valueError
  else
    let dist := if mode.isAngular then none else cosmo
    let d := domain dist factor np rank D1 D2
    let s := smoothing mode edges
    let all := decide (s > boxMax d * 0.25)
    let bins := (edges.length - 1) * (mode.second.getD 1)
    (Pairs.pairCount bins (fun a b => binOf mode edges (cartesian dist a) (cartesian dist b)) (fun a b => a.weight * b.weight)
      sepAvg sepCol junk mode.second showProgress tree
      ⟨fun a => d.owner (cartesian dist a), fun b => d.ghosts s (cartesian dist b)⟩ (if all then 1 else 0) 0 D1 (D2.getD D1)).map
      mode.squeeze

end NBK.SurvPairs
