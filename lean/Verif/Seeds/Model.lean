import Mathlib.Algebra.BigOperators.Group.List.Basic

/-!
# Model of the seeds of random catalogs (nbodykit/source/catalog/uniform.py, lognormal.py, source/mesh/linear.py)

A rank-wise value is a list over the ranks. `poisson seed` is the first Poisson draw of `RandomState(seed)` with the mean of
the catalog; `RandomState(None)` is seeded by the operating system, differently on every rank, with `entropy rank`. `draw` is the value
that `numpy.random.randint` returns on the root.
-/
namespace NBK.Seeds

inductive Err where
  | valueError
  deriving DecidableEq, Repr

/-- `comm.bcast(x)` from rank 0. -/
def bcast {α : Type} (l : List α) : List α := match l with
  | [] => []
  | x :: _ => l.map fun _ => x

/-- The seed on all `P` ranks (uniform.py 34-38, linear.py 53-57): drawn on the root and broadcast if it is None. -/
def resolve (P : Nat) (seed : Option Nat) (draw : Nat) : List (Option Nat) :=
  match seed with
  | some s => List.replicate P (some s)
  | none => bcast ((List.range P).map fun r => if r = 0 then some draw else none)

/-- The two seeds of `LogNormalCatalog` (lognormal.py 85-96). -/
def resolve2 (P : Nat) (seed cosmo : Option Nat) (draw : Nat) : List (Option Nat) × List (Option Nat) :=
  match seed with
  | none =>
    let s := (List.range P).map fun r => if r = 0 then some draw else none
    let c := (List.range P).map fun r => if r = 0 then (if cosmo = none then some draw else cosmo) else cosmo
    (bcast s, bcast c)
  | some _ => (List.replicate P seed, List.replicate P (if cosmo = none then seed else cosmo))

/-- The part of the catalog on a rank: the seed in `attrs` and the range of rows. -/
structure Part where
  seed : Option Nat
  start : Nat
  stop : Nat
  deriving DecidableEq, Repr

/-- `RandomCatalog.__init__` (uniform.py 28-52) on all ranks, with the size that every rank asks for. -/
def randomInit (csize : List Nat) (seed : Option Nat) (draw : Nat) : List (Except Err Part) :=
  let P := csize.length
  (List.zip csize (resolve P seed draw)).mapIdx fun r x =>
    if x.1 = 0 then .error .valueError
    else .ok ⟨x.2, r * x.1 / P, (r + 1) * x.1 / P⟩

/-- `UniformCatalog.__init__` (uniform.py 82-97) on all ranks: the number of objects is drawn on every rank. -/
def uniformInit (P : Nat) (poisson : Nat → Nat) (entropy : Nat → Nat) (seed : Option Nat) (draw : Nat) :
    List (Except Err Part) :=
  let n := (List.range P).map fun r => poisson (seed.getD (entropy r))
  (List.zip n (randomInit n seed draw)).map fun x => if x.1 = 0 then .error .valueError else x.2

end NBK.Seeds
