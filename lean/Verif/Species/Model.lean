import Verif.Catalog.Model

/-!
# Model of `MultipleSpeciesCatalog` (nbodykit/source/catalog/species.py)

Built on the heap of catalog objects of `Verif.Catalog.Model`.
Not modelled: the attrs of the multi-species catalog itself, `to_mesh` (see `Verif.SpeciesMesh`), and assigning a scalar
(`cat['s/c'] = 1.0` calls `CatalogSourceBase.__setitem__` directly, which makes a 0-dimensional dask array instead of a
constant column, line 147).
-/
namespace NBK.Species
open NBK.Catalog

/-- `str.split('/')`. -/
def splitSlash : List Char → List (List Char)
  | [] => [[]]
  | c :: cs =>
    if c = '/' then [] :: splitSlash cs
    else match splitSlash cs with
      | [] => [[c]]
      | f :: fs => (c :: f) :: fs

/-- `split_column(col, species)` (species.py 248-262). -/
def splitColumn (col : String) (species : List String) : Except Err (String × String) :=
  match splitSlash col.toList with
  | [s, c] => if String.ofList s ∈ species then .ok (String.ofList s, String.ofList c) else .error .valueError
  | _ => .error .valueError

/-- `self._sources`: species name and the catalog object (species.py 82); the names are `attrs['species']`. -/
abbrev Sources := List (String × Nat)

def names (S : Sources) : List String := S.map (·.1)

/-- `{name: cat.copy() for ...}` (82), after `attrs_to_dict(cat, ...)` has touched `cat.attrs` (71-72). -/
def mkSources {ρ V : Type} (h : Heap ρ V) : List (String × Nat) → Except Err (Heap ρ V × Sources)
  | [] => .ok (h, [])
  | (n, i) :: rest =>
    match copy (attrsOf h i).1 i with
    | .error e => .error e
    | .ok (h2, j) =>
      match mkSources h2 rest with
      | .error e => .error e
      | .ok (h3, S) => .ok (h3, (n, j) :: S)

/-- `MultipleSpeciesCatalog(names, *species)` (57-82): unique names, one name per catalog.
The communicator check is not modelled. -/
def multi {ρ V : Type} (h : Heap ρ V) (ns : List String) (cats : List Nat) : Except Err (Heap ρ V × Sources) :=
  if ¬ ns.Nodup then .error .valueError
  else if ns.length ≠ cats.length then .error .valueError
  else mkSources h (ns.zip cats)

/-- `self._sources[species]`. -/
def source (S : Sources) (s : String) : Option Nat := (S.find? (fun p => p.1 = s)).map (·.2)

/-- `cat['species/col']` (119-125). (`cat['species']`, which returns the catalog itself, is `source`.) -/
def getM {ρ V : Type} (S : Sources) (h : Heap ρ V) (key : String) : Except Err (List ρ) :=
  match splitColumn key (names S) with
  | .error e => .error e
  | .ok (s, c) =>
    match source S s with
    | none => .error .keyError
    | some j => getCol h j c

/-- Updates through the multi-species catalog. -/
inductive MUpd (ρ : Type) where
  | set (key : String) (l : List ρ)
  | del (key : String)

/-- The update of the species' catalog that `__setitem__` / `__delitem__` make (129-154); `none` if an error is
raised. -/
def translate {ρ V : Type} (S : Sources) : MUpd ρ → Option (Upd ρ V)
  | .set key l =>
    match splitColumn key (names S) with
    | .error _ => none
    | .ok (s, c) => (source S s).map fun j => .set j c (.arr l)
  | .del key =>
    match splitColumn key (names S) with
    | .error _ => none
    | .ok (s, c) => (source S s).map fun j => .del j c

/-- A history of updates through the multi-species catalog. -/
def runM {ρ V : Type} (S : Sources) (h : Heap ρ V) (us : List (MUpd ρ)) : Heap ρ V := run h (us.filterMap (translate S))

end NBK.Species
