import Verif.SurvPairs.Model

/-!
# Model of `SimulationBoxPairCount` (algorithms/pair_counters/simbox.py) and `verify_input_sources` (base.py)

The line of sight, the box, and the angular mode.  The counts in the box are in `Verif.Pairs`.  Positions are real numbers.
-/
noncomputable section
namespace NBK.BoxPairs
open Sky (Vec)

inductive Err where
  | valueError | indexError
  deriving DecidableEq, Repr

/-- The `los` argument: a string, an integer, a float with a whole value or not, or anything else. -/
inductive Los where
  | str (s : List Char)
  | int (i : Int)
  | float (whole : Option Int)
  | other

/-- `'xyz'.index(s)`, when `s in 'xyz'`: the first position at which `s` starts. -/
def findIn (s : List Char) (t : List Char) : Option Nat :=
  (List.range (t.length + 1)).find? fun i => s.isPrefixOf (t.drop i)

/-- The checks of `los` (simbox.py 94-104). A float equal to 0, 1 or 2 is in the list and kept as a float (`false`). -/
def parseLos : Los → Except Err (Int × Bool)
  | .str s => match findIn s ['x', 'y', 'z'] with
    | none => .error .valueError
    | some i => if i ∈ [0, 1, 2] then .ok (i, true) else .error .valueError
  | .int i =>
    let i := if i < 0 then i + 3 else i
    if i ∈ [0, 1, 2] then .ok (i, true) else .error .valueError
  | .float (some i) => if i ∈ [0, 1, 2] then .ok (i, false) else .error .valueError
  | .float none => .error .valueError
  | .other => .error .valueError

/-- `axes_order` (simbox.py 156-159). -/
def axesOrder (los : Int) : List Int := ([0, 1, 2].filter fun i => i != los) ++ [los]

/-- The coordinate of a vector along an axis. -/
def comp (v : Vec) (i : Int) : ℝ := if i = 0 then v.x else if i = 1 then v.y else v.z

/-- `pos[:, axes_order]` (simbox.py 176-177); a float index is an error. -/
def reorder (los : Int × Bool) (v : Vec) : Except Err (List ℝ) :=
  if los.2 then .ok ((axesOrder los.1).map (comp v)) else .error .indexError

/-- The BoxSize of `verify_input_sources` (base.py 140-158): those of the two sources, and the argument.  A number as argument
stands for three equal sides. -/
def boxSize (b1 b2 arg : Option Vec) : Except Err Vec :=
  let zero : Vec := ⟨0, 0, 0⟩
  let box := arg.getD (b1.getD zero)
  open Classical in
  if box = zero then .error .valueError
  else match b1, b2 with
    | some b1, some b2 => if b1 ≠ b2 then .error .valueError else if b1 ≠ box then .error .valueError else .ok box
    | _, _ => .ok box

/-- All coordinates lie strictly between two bounds. -/
def Inside (lo hi : Vec) (D : List (List Vec)) : Prop :=
  ∀ p ∈ D.flatten, (lo.x < p.x ∧ lo.y < p.y ∧ lo.z < p.z) ∧ (p.x < hi.x ∧ p.y < hi.y ∧ p.z < hi.z)

open Classical in
/-- `shift_to_box_center` (simbox.py 227-266); the comparisons are with the least and largest coordinates on all ranks. -/
def shift (box : Vec) (D : List (List Vec)) : Except Err (List (List Vec)) :=
  if Inside ⟨0, 0, 0⟩ box D then .ok (D.map fun l => l.map fun p => p - (0.5 : ℝ) • box)
  else if Inside ((-0.5 : ℝ) • box) ((0.5 : ℝ) • box) D then .ok D
  else .error .valueError

/-- `cat[name] = value` -/
def setCol {β : Type} (cols : List (String × β)) (name : String) (v : β) : List (String × β) :=
  if cols.any fun c => c.1 == name then cols.map fun c => if c.1 == name then (name, v) else c else cols ++ [(name, v)]

/-- The columns of a catalog after `first['ra'], first['dec'] = CartesianToEquatorial(pos1)` (simbox.py 190). -/
def addSky {β : Type} (cols : List (String × β)) (ra dec : β) : List (String × β) := setCol (setCol cols "ra" ra) "dec" dec

/-- A row of the catalog given to `decompose_survey_data`; the redshift is not used. -/
def skyObj (p : Vec) (w : ℚ) : SurvPairs.Obj :=
  let e := Sky.cartesianToEquatorial p ⟨0, 0, 0⟩
  ⟨e.ra, e.dec, 0, w⟩

/-- The rows of a distributed catalog with positions and weights. -/
def skyObjs (pos : List (List Vec)) (w : List (List ℚ)) : List (List SurvPairs.Obj) :=
  List.zipWith (List.zipWith skyObj) pos w

/-- `run` for the angular mode (simbox.py 179-225); the second catalog is moved on its own.  `domain_factor` has its default. -/
def angularPairs (box : Vec) (edges : List ℝ) (np : Nat → Nat) (rank : Nat → Nat → Nat → Nat)
    (sepAvg : SurvPairs.Obj → SurvPairs.Obj → ℚ) (junk : Pairs.Val) (sp : Bool) (tree : Pairs.Tree)
    (pos : List (List Vec)) (w : List (List ℚ)) (second : Option (List (List Vec) × List (List ℚ))) :
    Except Err (Except Pairs.Err Pairs.Pairs) :=
  match shift box pos with
  | .error e => .error e
  | .ok pos1 =>
    match second with
    | none => .ok (SurvPairs.surveyPairs .angular edges none 2 np rank sepAvg "thetaavg" junk sp tree (skyObjs pos1 w) none)
    | some (pos2, w2) =>
      match shift box pos2 with
      | .error e => .error e
      | .ok pos2 => .ok (SurvPairs.surveyPairs .angular edges none 2 np rank sepAvg "thetaavg" junk sp tree (skyObjs pos1 w)
          (some (skyObjs pos2 w2)))

end NBK.BoxPairs
