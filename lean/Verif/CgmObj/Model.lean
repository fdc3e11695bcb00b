import Verif.Cgm.Model
import Verif.Sort.Model
import Verif.Bounds.Model
import Verif.Fof.Model
import Mathlib.Algebra.Order.Ring.Rat
import Mathlib.Data.Fin.VecNotation

/-!
# Model of the object `CylindricalGroups` (nbodykit/algorithms/cgm.py 58-196, and the cuts of cgm.py 266-295)

The grouping of the sorted objects is `Verif.Cgm`, the sort `Verif.Sort`. Numbers are rational. Positions have three components. The domain decomposition
(`pmesh`) is given by the environment.
-/
namespace NBK.CgmObj
open NBK

/-- All exceptions of interest are ValueErrors. -/
inductive Err where
  | valueError
  deriving DecidableEq, Repr

abbrev Vec := Fin 3 → ℚ

def dot (a b : Vec) : ℚ := a 0 * b 0 + a 1 * b 1 + a 2 * b 2

/-- An object: its position and its other columns. -/
structure Part where
  pos : Vec
  row : Sort.Row

/-- A number or a sequence. -/
inductive Arg where
  | num (q : ℚ)
  | vec (l : List ℚ)
  deriving DecidableEq, Repr

/-- The catalog: its objects on all ranks, the columns of the class or file (`hardcolumns`) and those that were set, the types of the columns, and `BoxSize` in `attrs`. -/
structure Source where
  ranks : List (List Part)
  hard : List String
  over : List String
  dtype : String → Sort.DType
  box : Option Arg := none

def Source.all (s : Source) : List Part := s.ranks.flatten

/-- `source.columns`. -/
def Source.columns (s : Source) : List String := s.hard ++ s.over

/-- The position of the object with a global index. -/
def Source.posOf (s : Source) (k : Nat) : Vec := (s.all[k]?.map Part.pos).getD fun _ => 0

/-- `source['origind'] = source.Index` (cgm.py 156): the column hides any of that name. -/
def Source.setOrigind (s : Source) : Source :=
  { s with
    ranks := s.ranks.mapIdx fun r l => l.mapIdx fun i p =>
      { p with row := fun c => if c = "origind" then ⟨false, ((s.ranks.map List.length).take r).sum + i⟩ else p.row c }
    over := if "origind" ∈ s.over then s.over else s.over ++ ["origind"]
    dtype := fun c => if c = "origind" then .int else s.dtype c }

/-- `del source['origind']` (cgm.py 196, catalog.py 406-426): not allowed if there is a hard column of that name. -/
def Source.delOrigind (s : Source) : Except Err Source :=
  if "origind" ∈ s.hard then .error .valueError else .ok { s with over := s.over.filter fun c => c ≠ "origind" }

/-- `rankby`. -/
inductive RankBy where
  | none | name (s : String) | list (l : List String)
  deriving DecidableEq, Repr

/-- The arguments. -/
structure Args where
  rankby : RankBy
  rperp : ℚ
  rpar : ℚ
  los : Option Arg := none
  periodic : Bool := false
  box : Option Arg := none

/-- The attributes that are stored (cgm.py 77-104); the box is `none` if it is filled with NaN. -/
structure Attrs where
  rankby : List String
  rperp : ℚ
  rpar : ℚ
  los : Option Vec
  periodic : Bool
  box : Option Vec

/-- The world: `mpsort`, the sorting of pandas, the roots, and the decomposition of the domain: for the positions on the ranks and the edges of the grid the
sorted indices of the objects that each rank gets, and for a squared smoothing length those with the ghosts. -/
structure Env where
  srt : Sort.Sorter
  desc : (Nat × Nat → Nat) → List (Nat × Nat) → List (Nat × Nat)
  emptyCall : Bool
  cbrt : Nat → Nat
  sqrt : Nat → Nat
  own : List (List Vec) → List (List ℚ) → List (List Nat)
  held : List (List Vec) → List (List ℚ) → ℚ → List (List Nat)

/-- `rankby` as a list (cgm.py 64-68). -/
def rankList : RankBy → List String
  | .none => []
  | .name s => [s]
  | .list l => l

/-- `numpy.empty(3)[:] = BoxSize` (cgm.py 79-83). -/
def fill : Option Arg → Except Err (Option Vec)
  | none => .ok none
  | some (.num q) => .ok (some fun _ => q)
  | some (.vec [q]) => .ok (some fun _ => q)
  | some (.vec [x, y, z]) => .ok (some ![x, y, z])
  | some (.vec _) => .error .valueError

/-- The checks of the line of sight (cgm.py 86-90): `allclose` to one with `rtol=1e-5` and `atol=1e-8`. -/
def checkLos : Option Arg → Except Err (Option Vec)
  | none => .ok none
  | some (.vec [x, y, z]) => if |dot ![x, y, z] ![x, y, z] - 1| ≤ 1 / 10 ^ 8 + 1 / 10 ^ 5 then .ok (some ![x, y, z]) else .error .valueError
  | some _ => .error .valueError

/-- `posmin` and `posmax` of an axis (cgm.py 166-167): `none` if a rank has no objects. -/
def lowHigh (pos : List (List Vec)) (i : Fin 3) : Option (ℚ × ℚ) :=
  match (pos.mapM fun (l : List Vec) => (l.map (· i)).min?).bind List.min?, (pos.mapM fun (l : List Vec) => (l.map (· i)).max?).bind List.max? with
  | some a, some b => some (a, b)
  | _, _ => none

/-- `numpy.linspace(a, b, n + 1, endpoint=True)`. -/
def linspace (a b : ℚ) (n : Nat) : List ℚ := (List.range (n + 1)).map fun (i : Nat) => a + i * ((b - a) / n)

/-- The edges of the grid (cgm.py 170-174): the lower end is that of the first axis, for all axes. -/
def grid (e : Env) (pos : List (List Vec)) : Option (List (List ℚ)) :=
  match lowHigh pos 0, lowHigh pos 1, lowHigh pos 2 with
  | some x, some y, some z =>
    let np := Bounds.splitSize3d e.cbrt e.sqrt pos.length
    some [linspace x.1 x.2 np.1, linspace x.1 y.2 np.2.1, linspace x.1 z.2 np.2.2]
  | _, _, _ => none

/-- One axis of the separation with periodic boundaries (cgm.py 274-277). -/
def wrap (L d : ℚ) : ℚ :=
  let c := if d > L * (1 / 2) then d - L else d
  if c ≤ -L * (1 / 2) then c + L else c

/-- `valid` (cgm.py 268-295). -/
def valid (a : Attrs) (p q : Vec) : Bool :=
  let dr : Vec := fun i => match a.periodic, a.box with
    | true, some L => wrap (L i) (p i - q i)
    | _, _ => p i - q i
  match a.los with
  | some n =>
    let rlos2 := (dot dr n) ^ 2
    decide (|dot dr dr - rlos2| ≤ a.rperp ^ 2) && decide (rlos2 ≤ a.rpar ^ 2)
  | none =>
    let center : Vec := fun i => 1 / 2 * (p i + q i)
    if dot center center = 0 then false
    else
      let rlos2 := (dot dr center) ^ 2 / dot center center
      decide (|dot dr dr - rlos2| ≤ a.rperp ^ 2) && decide (rlos2 ≤ a.rpar ^ 2)

/-- `run` (cgm.py 123-196): the groups, on ranks of the sizes of the input, and what has become of the source. -/
def run (e : Env) (s : Source) (a : Attrs) : Except Err (List (List Cgm.Row)) × Source :=
  let s1 := s.setOrigind
  match Sort.sort e.srt s1.columns s1.dtype (s1.ranks.map fun l => l.map Part.row) a.rankby false (some ["Position", "origind"]) with
  | .error _ => (.error .valueError, s1)
  | .ok (D, _) =>
    let ord := D.flatten.map fun r => (r "origind").mag
    let pos := D.map fun l => l.map fun r => s1.posOf (r "origind").mag
    match grid e pos with
    | none => (.error .valueError, s1)
    | some edges =>
      match Cgm.cgm e.desc (fun i j => valid a (s1.posOf (ord.getD i 0)) (s1.posOf (ord.getD j 0))) e.emptyCall (fun k => ord.getD k 0)
          (e.own pos edges) (e.held pos edges (a.rperp ^ 2 + a.rpar ^ 2)) with
      | .error _ => (.error .valueError, s1)
      | .ok out =>
        match s1.delOrigind with
        | .error x => (.error x, s1)
        | .ok s2 => (.ok (Fof.cut (D.map List.length) out), s2)

/-- The object. -/
structure Obj where
  attrs : Attrs
  groups : List (List Cgm.Row)

/-- `source.attrs.get('BoxSize', BoxSize)` (cgm.py 80): the box of the source comes before the argument. -/
def boxOf (s : Source) (g : Args) : Option Arg :=
  match s.box with
  | some b => some b
  | none => g.box

/-- `__init__` (cgm.py 58-121). -/
def new (e : Env) (s : Source) (g : Args) : Except Err Obj × Source :=
  if "Position" ∉ s.columns then (.error .valueError, s)
  else if (rankList g.rankby).any fun c => c ∉ s.columns then (.error .valueError, s)
  else
    if g.periodic ∧ boxOf s g = none then (.error .valueError, s)
    else
      match fill (boxOf s g) with
      | .error x => (.error x, s)
      | .ok b =>
        match checkLos g.los with
        | .error x => (.error x, s)
        | .ok n =>
          let a : Attrs := ⟨rankList g.rankby, g.rperp, g.rpar, n, g.periodic, b⟩
          match run e s a with
          | (.error x, s') => (.error x, s')
          | (.ok groups, s') => (.ok ⟨a, groups⟩, s')

end NBK.CgmObj
