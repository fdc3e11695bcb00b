import Verif.Fiber.Model
import Verif.Fof.Model
import Verif.Fof.Labels
import Verif.Sky.Model

/-!
# Model of the object `FiberCollisions` (nbodykit/algorithms/fibercollisions.py 13-142)

Real numbers in place of floats (the positions handed to the assignment are single precision, which is not modelled). A distributed catalog is the list of the
rows of each rank. The decomposition and the labels of `kdcount` are functions of the side of the box, the positions and the radius; random choices are arbitrary functions.
-/
noncomputable section
namespace NBK.FiberObj
open NBK

inductive Err where
  | valueError | indexError | other
  deriving DecidableEq, Repr

def ofFof {α : Type} : Except Fof.Err α → Except Err α
  | .ok a => .ok a
  | .error .valueError => .error .valueError
  | .error _ => .error .other

def ofFiber {α : Type} : Except Fiber.Err α → Except Err α
  | .ok a => .ok a
  | .error .valueError => .error .valueError
  | .error .indexError => .error .indexError

/-- The arguments: right ascension and declination of the objects on each rank. -/
structure Args where
  sky : List (List (ℝ × ℝ))
  radius : ℝ := 62 / 60 / 60
  seed : Option Nat := none
  degrees : Bool := true

/-- The world: sorting, domain decomposition, `kdcount`, the order of the objects of a group, and what the random numbers of a seed choose. -/
structure Env where
  argsort : List Nat → List Nat
  sort : (Fof.Rec → Nat) → List Fof.Rec → List Fof.Rec
  held : ℝ → List (List Sky.Vec) → ℝ → List (List Nat)
  kd : ℝ → List (List Sky.Vec) → ℝ → List (List Nat)
  ord : List (Nat × Nat) → List (Nat × Nat)
  which : Nat → Nat → Bool
  pick : Nat → Nat → Nat → List Nat → Nat
  randint : Nat

/-- The side of the box around the sphere (fibercollisions.py 57). -/
def side : ℝ := 22 / 10

/-- The position of an object: on the unit sphere, moved into the box (fibercollisions.py 52). -/
def position (degrees : Bool) (o : ℝ × ℝ) : Sky.Vec := Sky.skyToUnitSphere o.1 o.2 degrees + ⟨11 / 10, 11 / 10, 11 / 10⟩

/-- `pdist(..., metric='euclidean')` (fibercollisions.py 252, 281). -/
def chord (a b : Sky.Vec) : ℝ := Real.sqrt ((a.x - b.x) ^ 2 + (a.y - b.y) ^ 2 + (a.z - b.z) ^ 2)

/-- A row of the result (fibercollisions.py 133-136). -/
structure Row where
  label : Nat
  collided : Option Bool
  neighbor : Option Int

/-- The object: `attrs` and the rows of `labels` on each rank. -/
structure Obj where
  radius : ℝ
  seed : Nat
  degrees : Bool
  rows : List (List Row)

/-- The rows from the columns (fibercollisions.py 133-139). -/
def rowsOf (labels : List (List Nat)) (res : List (List Fiber.Res)) : List (List Row) :=
  (labels.zip res).map fun r => (r.1.zip r.2).map fun x => ⟨x.1, x.2.1, x.2.2⟩

/-- `__init__` and `run` (fibercollisions.py 46-142); `none` while the merging of `FOF` has not ended. `numpy.squeeze` (line 56) of the single row of a rank is not
an array of rows any more: the data types differ between ranks, or there are no positions of objects. `FOF` is called with `nmin = 1` and its default, periodic
boundaries. -/
def new (e : Env) (fuel : Nat) (a : Args) : Option (Except Err Obj) :=
  if a.sky.any fun l => l.length = 1 then some (.error .other)
  else
    let pos := a.sky.map fun l => l.map (position a.degrees)
    let seed := a.seed.getD e.randint
    let R := Sky.deg2rad a.radius
    (Fof.fof e.argsort (e.held side pos R) (pos.map List.length) (e.kd side pos R) fuel).map fun r =>
      (ofFof r).bind fun minid => (ofFof (Fof.assignLabels e.sort e.argsort 1 minid)).bind fun labels =>
      (ofFiber (Fiber.assignFibers (fun i j => chord (pos.flatten.getD i ⟨0, 0, 0⟩) (pos.flatten.getD j ⟨0, 0, 0⟩)) R (e.which seed) (e.pick seed) e.ord labels)).bind fun res =>
      .ok ⟨a.radius, seed, a.degrees, rowsOf labels res⟩

end NBK.FiberObj
