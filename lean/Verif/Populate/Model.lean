import Mathlib.Data.List.Sort
import Mathlib.Algebra.Field.Defs

/-!
# Model of populating halos (nbodykit/source/catalog/halos.py)

The halotools model is a value with its parameters, its galaxy types and, once it has been populated, the halos of its mock. The population itself
is a function of the parameters, the local halos and the seed of the rank. The order of the galaxy types is that of `sorted`. Failures are returned
together with the state they leave behind.
-/
namespace NBK.Populate

/-- The errors (halos.py 333, 355, 377). -/
inductive Err | invalid | noHalos | empty
deriving DecidableEq, Repr

/-- A dictionary. -/
abbrev Dict (κ V : Type) := κ → Option V

/-- `dict.update` with key/value pairs; later ones win. -/
def Dict.update {κ V : Type} [DecidableEq κ] (d : Dict κ V) (ps : List (κ × V)) : Dict κ V :=
  ps.foldl (fun d p k => if k = p.1 then some p.2 else d k) d

/-- `dict.update` with another dictionary. -/
def Dict.merge {κ V : Type} (d e : Dict κ V) : Dict κ V := fun k => (e k).orElse fun _ => d k

/-- A halotools model instance; `mock` holds the halos of each rank once `populate_mock` has run. -/
structure HModel (κ V τ H : Type) where
  params : Dict κ V
  types : List τ
  mock : Option (List (List H))

/-- What is given from outside: the communicator size, the random state of numpy on each rank, the stream of a seed, the population, the
factor from `attrs['redshift']`, the velocity of a galaxy and the name of the satellites. -/
structure Env (κ V τ H G S K : Type) where
  size : Nat
  random : Nat → S
  stream : S → Nat → S
  pop : Dict κ V → List H → S → List (τ × G)
  factor : Dict κ V → K
  vel : G → K
  sat : τ

/-- A `PopulatedHaloCatalog`: the rows on each rank with the integer type, the names of added columns, the velocity offset if it has been set, the
attributes, the seed stored on each rank, the types stored, and the satellite fraction. -/
structure Cat (κ V τ G S K : Type) where
  rows : List (List (Nat × G))
  overrides : List String
  offset : Option (List (List K))
  attrs : Dict κ V
  seeds : Option (List S)
  types : τ → Option Nat
  fsat : Option (Nat × Nat)

variable {κ V τ H G S K : Type}

/-- `_enum_gal_types` for one galaxy (halos.py 431-440). -/
def enumType [LinearOrder τ] (types : List τ) (t : τ) : Nat :=
  ((types.drop 1).insertionSort (· ≤ ·)).zipIdx.foldl (fun acc p => if t = p.1 then p.2 + 1 else acc) 0

/-- `attrs['gal_types']` (halos.py 391): later entries win. -/
def typeAttr [DecidableEq τ] (types : List τ) (t : τ) : Option Nat :=
  types.zipIdx.foldl (fun acc p => if t = p.1 then some p.2 else acc) none

/-- The satellite fraction, as number and total (halos.py 410-416). -/
def fsatOf [DecidableEq τ] (sat : τ) (types : List τ) (rows : List (List (Nat × G))) : Option (Nat × Nat) :=
  (typeAttr types sat).map fun i => (rows.flatten.countP (fun r => r.1 == i), rows.flatten.length)

/-- The halos that get populated: those of the mock when the model has one (halos.py 350-356). -/
def halosUsed (m : HModel κ V τ H) (halocat : Option (List (List H))) : Option (List (List H)) :=
  match m.mock with
  | some h => some h
  | none => halocat

/-- The rows on every rank (halos.py 343, 349-365). -/
def rowsOf [LinearOrder τ] (e : Env κ V τ H G S K) (types : List τ) (params : Dict κ V) (halos : List (List H)) (seed : Nat → S) :
    List (List (Nat × G)) :=
  (List.range e.size).map fun r => (e.pop params (halos.getD r []) (e.stream (seed r) r)).map fun g => (enumType types g.1, g.2)

/-- `_populate_mock` (halos.py 319-398). `attrs` are those of the catalog passed in; `old` is that catalog when the operation is in place. -/
def populateMock [DecidableEq κ] [LinearOrder τ] [Mul K] (e : Env κ V τ H G S K) (attrs : Dict κ V) (old : Option (Cat κ V τ G S K)) (m : HModel κ V τ H)
    (seed : Option S) (halocat : Option (List (List H))) (ps : List (κ × V)) : HModel κ V τ H × Option (Cat κ V τ G S K) × Except Err Unit :=
  if ps.any fun p => (m.params p.1).isNone then (m, old, .error .invalid) else
  let m := { m with params := Dict.update m.params ps }
  let seed := fun r => seed.getD (e.random r)
  match halosUsed m halocat with
  | none => (m, old, .error .noHalos)
  | some halos =>
    let m := { m with mock := some halos }
    let rows := rowsOf e m.types m.params halos seed
    let cat : Cat κ V τ G S K := match old with
      | none => { rows := rows, overrides := [], offset := none, attrs := fun _ => none, seeds := none, types := fun _ => none, fsat := none }
      | some c => { c with rows := rows, overrides := [], offset := none }
    if rows.flatten.length = 0 then (m, old.map fun _ => cat, .error .empty) else
    let f := e.factor attrs
    (m, some { cat with
      overrides := ["Position", "Velocity", "VelocityOffset"]
      offset := some (rows.map fun l => l.map fun g => e.vel g.2 * f)
      attrs := Dict.merge (Dict.merge cat.attrs attrs) m.params
      seeds := some ((List.range e.size).map seed)
      types := typeAttr m.types
      fsat := (fsatOf e.sat m.types rows).elim cat.fsat some }, .ok ())

/-- `HaloCatalog.populate` with a model instance (halos.py 246-269). -/
def populate [DecidableEq κ] [LinearOrder τ] [Mul K] (e : Env κ V τ H G S K) (attrs : Dict κ V) (halos : List (List H)) (m : HModel κ V τ H)
    (seed : Option S) (ps : List (κ × V)) : HModel κ V τ H × Option (Cat κ V τ G S K) × Except Err Unit :=
  populateMock e attrs none m seed (some halos) ps

/-- `PopulatedHaloCatalog.repopulate` (halos.py 296-317). -/
def repopulate [DecidableEq κ] [LinearOrder τ] [Mul K] (e : Env κ V τ H G S K) (c : Cat κ V τ G S K) (m : HModel κ V τ H) (seed : Option S)
    (ps : List (κ × V)) : HModel κ V τ H × Option (Cat κ V τ G S K) × Except Err Unit :=
  populateMock e c.attrs (some c) m seed none ps

end NBK.Populate
