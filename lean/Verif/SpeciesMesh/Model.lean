import Verif.Paint.Model

/-!
# Model of `MultipleSpeciesCatalogMesh.to_real_field` (nbodykit/source/mesh/species.py 110-182)

The painting of one species is `NBK.Paint.paint` (topic Paint).  Painting with `out=real` adds the deposits to those already
there (catalog.py 193-196, 277, 352).  `none` is NaN.
-/
namespace NBK.SpeciesMesh
open NBK.Paint

/-- One species: its name and the rows of every rank. -/
structure Species where
  name : String
  ranks : List (List Row)

/-- The `shotnoise` attribute of a painted species (catalog.py 374): 0/0 is NaN. -/
def shotOf (volume : ℚ) (r : Result) : Option ℚ := if r.W = 0 then none else some (volume * r.W2 / r.W ^ 2)

/-- The state of the loop over the species: the deposits on `real` and the `attrs`: `num_per_cell`, `N` and those of each
species, under its name. -/
structure Acc where
  mesh : List Row
  nbar : ℚ
  N : Nat
  per : List (String × Result)

/-- One species (species.py 146-163): painted in place, not normalized. -/
def step (dest : Row → List Nat) (maxc ncells : Nat) (volume : ℚ) (a : Acc) (s : Species) : Except Err Acc :=
  match paint dest maxc s.ranks ncells volume false with
  | .error e => .error e
  | .ok r => .ok ⟨a.mesh ++ r.mesh, a.nbar + r.nbar, a.N + r.N, a.per ++ [(s.name, r)]⟩

/-- The loop over the species. -/
def steps (dest : Row → List Nat) (maxc ncells : Nat) (volume : ℚ) : Acc → List Species → Except Err Acc
  | a, [] => .ok a
  | a, s :: l =>
    match step dest maxc ncells volume a s with
    | .error e => .error e
    | .ok a' => steps dest maxc ncells volume a' l

/-- `a / b` of floats: NaN (or infinite) for `b = 0`. -/
def fdiv (a b : ℚ) : Option ℚ := if b = 0 then none else some (a / b)

/-- The term of one species in the shot noise (species.py 177-180). -/
def shotTerm (volume total : ℚ) (r : Result) : Option ℚ := do
  let f ← fdiv r.W total
  let p ← shotOf volume r
  pure (f ^ 2 * p)

/-- The sum of the terms, starting with 0. -/
def sumOpt : List (Option ℚ) → Option ℚ
  | [] => some 0
  | x :: l => do
    let a ← x
    let b ← sumOpt l
    pure (a + b)

/-- The returned field: deposits, factor (`none` if every cell is NaN) and attributes. -/
structure Field where
  mesh : List Row
  factor : Option ℚ
  N : Nat
  nbar : ℚ
  shotnoise : Option ℚ
  per : List (String × Result)

/-- `to_real_field` (species.py 135-182). -/
def toRealField (dest : Row → List Nat) (maxc ncells : Nat) (volume : ℚ) (normalize : Bool) (sp : List Species) :
    Except Err Field :=
  match steps dest maxc ncells volume ⟨[], 0, 0, []⟩ sp with
  | .error e => .error e
  | .ok a =>
    let total := (a.per.map fun p => p.2.W).sum
    .ok ⟨a.mesh, if normalize then fdiv 1 a.nbar else some 1, a.N, a.nbar,
      sumOpt (a.per.map fun p => shotTerm volume total p.2), a.per⟩

end NBK.SpeciesMesh
