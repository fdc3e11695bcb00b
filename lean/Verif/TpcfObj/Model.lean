import Verif.Ylm.Props
import Verif.SurvPairs.Model

/-!
# Model of the objects of the three-point function (nbodykit/algorithms/threeptcf.py)

`SimulationBox3PCF` and `SurveyData3PCF` from their arguments to the multipoles, and the table of harmonics `YlmCache`.  All ranks
at once: a column is the list of its parts on the ranks.  Numbers are real.  pmesh is external: `GridND` sends an object to the
rank of its cell, and to the ranks of the cells which come within `smoothing` of an image of it.  kdcount is external: a parameter
`Enum` gives the bunches of neighbours of a primary.  The sum over the primaries of a rank is `Verif.Tpcf`, with the
harmonics of `Verif.Ylm`.
-/
noncomputable section
namespace NBK.TpcfObj
open Tpcf (Vec Obj Result)

inductive Err where
  | valueError | typeError | keyError | zeroDivision
  deriving DecidableEq, Repr

/-- A BoxSize: a number or a sequence. -/
inductive Size where
  | num (x : ℝ)
  | vec (l : List ℝ)

/-- `_BoxSize[:] = size` (base.py 146-148) -/
def three : Size → Except Err (Vec ℝ)
  | .num x => .ok ⟨x, x, x⟩
  | .vec [x] => .ok ⟨x, x, x⟩
  | .vec [x, y, z] => .ok ⟨x, y, z⟩
  | .vec _ => .error .valueError

/-- `_BoxSize[:] = BoxSize1[:]` (base.py 143-146): a number cannot be sliced. -/
def attrBox : Option Size → Except Err (Vec ℝ)
  | none => .ok ⟨0, 0, 0⟩
  | some (.num _) => .error .typeError
  | some s => three s

/-- `_BoxSize[:] = BoxSize` (base.py 147-148) -/
def argBox (b : Vec ℝ) : Option Size → Except Err (Vec ℝ)
  | none => .ok b
  | some s => three s

open Classical in
/-- The BoxSize of `verify_input_sources` (base.py 142-159), for one source. -/
def verifyBox (attr arg : Option Size) : Except Err (Vec ℝ) :=
  match attrBox attr with
  | .error e => .error e
  | .ok b0 => match argBox b0 arg with
    | .error e => .error e
    | .ok b => if b = ⟨0, 0, 0⟩ then .error .valueError
        else if attr.isSome = true ∧ b0 ≠ b then .error .valueError
        else .ok b

/-! ## Decomposition of a box (pair_counters/domain.py 47-132) -/

/-- `x % L` -/
def wrap (L x : ℝ) : ℝ := x - L * ⌊x / L⌋

/-- `pos %= BoxSize` (domain.py 90-91) -/
def wrapVec (L v : Vec ℝ) : Vec ℝ := ⟨wrap L.x v.x, wrap L.y v.y, wrap L.z v.z⟩

/-- The cell of a coordinate among `n` along a side `L`: the grid is periodic. -/
def cellOf (n : Nat) (L x : ℝ) : Nat := ⌊wrap L x * n / L⌋.toNat

/-- The number of a cell. -/
def rankOf (np : Nat × Nat × Nat) (i j k : Nat) : Nat := (i * np.2.1 + j) * np.2.2 + k

/-- The rank of a primary: `domain.decompose(pos1, smoothing=0)` (domain.py 108-118). -/
def owner (L : Vec ℝ) (np : Nat × Nat × Nat) (v : Vec ℝ) : Nat :=
  rankOf np (cellOf np.1 L.x v.x) (cellOf np.2.1 L.y v.y) (cellOf np.2.2 L.z v.z)

/-- An image of the coordinate is within `s` of the cell. -/
def near (n : Nat) (L s : ℝ) (k : Nat) (y : ℝ) : Prop :=
  ∃ m : ℤ, L * k / n - s ≤ y + m * L ∧ y + m * L ≤ L * (k + 1) / n + s

/-- The ranks of a secondary: `domain.decompose(pos2, smoothing=smoothing)` (domain.py 125-127). -/
def ghost (L : Vec ℝ) (np : Nat × Nat × Nat) (s : ℝ) (r : Nat) (v : Vec ℝ) : Prop :=
  ∃ i j k, i < np.1 ∧ j < np.2.1 ∧ k < np.2.2 ∧ r = rankOf np i j k ∧
    near np.1 L.x s i v.x ∧ near np.2.1 L.y s j v.y ∧ near np.2.2 L.z s k v.z

/-- `BoxSize.max()` -/
def boxMax (L : Vec ℝ) : ℝ := max L.x (max L.y L.z)

/-- `BoxSize.min()` -/
def boxMin (L : Vec ℝ) : ℝ := min L.x (min L.y L.z)

/-- `pos1`, with the periodic boundaries enforced (domain.py 88-92). -/
def enforced (L : Vec ℝ) (periodic : Bool) (D : List (List (Obj ℝ))) : List (List (Obj ℝ)) :=
  if periodic then D.map fun l => l.map fun o => ⟨wrapVec L o.pos, o.w⟩ else D

open Classical in
/-- Primaries and secondaries of the ranks (domain.py 116-132). -/
def decomposeBox (L : Vec ℝ) (np : Nat × Nat × Nat) (s : ℝ) (D : List (List (Obj ℝ))) : List (List (Obj ℝ) × List (Obj ℝ)) :=
  (List.range D.length).map fun r =>
    (D.flatten.filter fun o => owner L np o.pos = r,
      if s > boxMax L * 0.25 then D.flatten else D.flatten.filter fun o => ghost L np s r o.pos)

/-! ## The algorithm -/

/-- `tree_sec.enum(tree_prim, rmax, process=callback, bunch=bunchsize)` (threeptcf.py 115-118): from the box of the tree, the size
of a bunch, `rmax`, the secondaries and the primary, the bunches of neighbours. -/
abbrev Enum := Option (Vec ℝ) → Nat → ℝ → List (Obj ℝ) → Obj ℝ → List (List (Obj ℝ))

/-- `_run` (threeptcf.py 35-150) on decomposed data. -/
def runOn (enum : Enum) (box : Option (Vec ℝ)) (bunch : Nat) (poles : List Nat) (edges : List ℝ)
    (parts : List (List (Obj ℝ) × List (Obj ℝ))) : Except Err (Result ℝ) :=
  match Tpcf.run (Ylm.tpcfEnv box edges) poles
      (parts.map fun q => ⟨q.1, enum box bunch (SurvPairs.maxOf edges) q.2⟩) with
  | .ok r => .ok r
  | .error .valueError => .error .valueError
  | .error .zeroDivision => .error .zeroDivision

/-- `SimulationBox3PCF.run` (threeptcf.py 255-288) -/
def runBox (enum : Enum) (L : Vec ℝ) (periodic : Bool) (np : Nat × Nat × Nat) (pedantic : Bool) (poles : List Nat) (edges : List ℝ)
    (D : List (List (Obj ℝ))) : Except Err (Result ℝ) :=
  let box := if periodic then some L else none
  if edges = [] then .error .valueError
  else runOn enum box (if pedantic then 1 else 10000) poles edges
    (decomposeBox L np (SurvPairs.maxOf edges) (enforced L periodic D))

/-- A catalog: its columns of vectors and of numbers, and `attrs['BoxSize']`. -/
structure Source where
  vec : List (String × List (List (Vec ℝ)))
  num : List (String × List (List ℝ))
  box : Option Size

/-- The objects of two columns. -/
def rows (pos : List (List (Vec ℝ))) (w : List (List ℝ)) : List (List (Obj ℝ)) := List.zipWith (List.zipWith fun p w => ⟨p, w⟩) pos w

/-- The object: the multipoles, the edges of the BinnedStatistic, and what `attrs` records. -/
structure Out where
  poles : Result ℝ
  edges : List ℝ
  box : Option (Vec ℝ)
  periodic : Option Bool

/-- `SimulationBox3PCF` (threeptcf.py 14-33, 234-252); `np` is `split_size_3d(comm.size)`.  A column is looked up among those of its
kind.  `periodic=None` skips the box, and `run` then finds no `attrs['periodic']`. -/
def simBox (enum : Enum) (np : Nat × Nat × Nat) (src : Source) (poles : List Nat) (edges : List ℝ) (BoxSize : Option Size)
    (periodic : Option Bool) (weight position : String) : Except Err Out :=
  match src.vec.lookup position, src.num.lookup weight with
  | some pos, some w =>
    match periodic with
    | none => .error .keyError
    | some per => match verifyBox src.box BoxSize with
      | .error e => .error e
      | .ok L =>
        open Classical in
        if per = true ∧ (edges = [] ∨ SurvPairs.maxOf edges > 0.5 * boxMin L) then .error .valueError
        else match runBox enum L per np false poles edges (rows pos w) with
          | .error e => .error e
          | .ok r => .ok ⟨r, edges, some L, some per⟩
  | _, _ => .error .valueError

/-! ## Survey data -/

/-- The rows of a survey catalog: sky coordinates and redshift, and the weight. -/
def skyRows (ra dec z w : List (List ℝ)) : List (List (SurvPairs.Obj × ℝ)) :=
  List.zipWith (List.zipWith fun a b => (⟨a.1, a.2, b.1, 0⟩, b.2)) (List.zipWith List.zip ra dec) (List.zipWith List.zip z w)

/-- An object at its Cartesian position (domain.py 262-265, `return_cartesian`). -/
def place (dist : ℝ → ℝ) (o : SurvPairs.Obj × ℝ) : Obj ℝ :=
  let v := SurvPairs.cartesian (some dist) o.1
  ⟨⟨v.x, v.y, v.z⟩, o.2⟩

/-- The position for the grid of `Verif.SurvPairs`. -/
def skyVec (v : Vec ℝ) : Sky.Vec := ⟨v.x, v.y, v.z⟩

open Classical in
/-- Primaries and secondaries of the ranks (domain.py 248-283); `rank` is the outcome of `loadbalance`. -/
def decomposeSky (dist : ℝ → ℝ) (factor : Nat) (np : Nat → Nat) (rank : Nat → Nat → Nat → Nat) (s : ℝ)
    (D : List (List (SurvPairs.Obj × ℝ))) : List (List (Obj ℝ) × List (Obj ℝ)) :=
  let d := SurvPairs.domain (some dist) factor np rank (D.map fun l => l.map (·.1)) none
  let all := D.flatten.map (place dist)
  (List.range D.length).map fun r =>
    (all.filter fun o => d.owner (skyVec o.pos) = r,
      if s > SurvPairs.boxMax d * 0.25 then all else all.filter fun o => r ∈ d.ghosts s (skyVec o.pos))

/-- `SurveyData3PCF` (threeptcf.py 344-390); `cosmo` gives the comoving distance of a redshift. -/
def survey (enum : Enum) (np : Nat → Nat) (rank : Nat → Nat → Nat → Nat) (src : Source) (poles : List Nat) (edges : List ℝ)
    (cosmo : Option (ℝ → ℝ)) (factor : Nat) (ra dec redshift weight : String) : Except Err Out :=
  match src.num.lookup ra, src.num.lookup dec, src.num.lookup redshift, src.num.lookup weight with
  | some a, some d, some z, some w =>
    if edges = [] then .error .valueError
    else match cosmo with
      | none => .error .valueError
      | some dist => match runOn enum none 10000 poles edges
            (decomposeSky dist factor np rank (SurvPairs.maxOf edges) (skyRows a d z w)) with
        | .error e => .error e
        | .ok r => .ok ⟨r, edges, none, none⟩
  | _, _, _, _ => .error .valueError

end NBK.TpcfObj
