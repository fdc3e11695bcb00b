import Verif.Plain.Model
import Mathlib.Algebra.Order.Ring.Rat
import Mathlib.Data.Rat.Floor

/-!
# Model of the meta-data of `MultipleSpeciesCatalog`, its `to_mesh`, and `MultipleSpeciesCatalogMesh`
(nbodykit/source/catalog/species.py 57-246, source/mesh/species.py 44-108)

The catalogs of the species are given by their communicator, columns and `attrs`; the columns' values and the copies are the topic
`Species`, painting is `SpeciesMesh`.  Names are lists of characters.  Lists of names that the caller keeps hold of live in a store
(`Lists`), so that `attrs['species']` is a reference to the list that was passed.
-/
namespace NBK.SpecObj
open NBK.Plain (Tok Dict put get del update)

inductive Err where
  | valueError | typeError | keyError | indexError | runtimeError | attributeError
  deriving DecidableEq, Repr

/-- A value of the meta-data: a number, a vector, `None`, or another object. -/
inductive Meta where
  | none
  | num (x : ℚ)
  | vec (l : List ℚ)
  | other (k : Nat)
  deriving DecidableEq, Repr

/-- What `attrs` of the catalog of several species holds: a list of names (by reference) or a value. -/
inductive Attr where
  | names (ref : Nat)
  | val (m : Meta)
  deriving DecidableEq, Repr

/-- The lists of names alive. -/
abbrev Lists := List (List Tok)

/-- A catalog of one species. -/
structure Cat where
  id : Nat
  comm : Nat
  columns : List Tok
  attrs : Dict Meta
  deriving DecidableEq, Repr

/-- A `MultipleSpeciesCatalog`; `sources` is the dictionary `_sources`. -/
structure Multi where
  comm : Nat
  attrs : Dict Attr
  sources : Dict Cat
  deriving DecidableEq, Repr

def sSpecies : Tok := ['s', 'p', 'e', 'c', 'i', 'e', 's']
def sBoxSize : Tok := ['B', 'o', 'x', 'S', 'i', 'z', 'e']
def sNmesh : Tok := ['N', 'm', 'e', 's', 'h']

/-- `attrs_to_dict(cat, name + '.')` (utils.py 372-379). -/
def prefixed (name : Tok) (attrs : Dict Meta) : Dict Attr := attrs.map fun q => (name ++ '.' :: q.1, .val q.2)

/-- The loop `for cat, name in zip(species, names)` (species.py 71-72). -/
def speciesAttrs : List (Tok × Cat) → Dict Attr → Dict Attr
  | [], d => d
  | (n, c) :: rest, d => speciesAttrs rest (update d (prefixed n c.attrs))

/-- `{name: cat.copy() for name, cat in zip(names, species)}` (species.py 82). -/
def sourcesOf (l : List (Tok × Cat)) : Dict Cat := l.foldl (fun d q => put q.1 q.2 d) []

/-- `MultipleSpeciesCatalog(names, *species, **kwargs)` (species.py 57-82); `ref` is the list passed as `names`. Without catalogs
`species[0]` fails. -/
def multi (ls : Lists) (ref : Nat) (cats : List Cat) (kwargs : Dict Attr) : Except Err Multi :=
  let names := ls.getD ref []
  if ¬ names.Nodup then .error .valueError
  else match cats with
    | [] => if names.length ≠ 0 then .error .valueError else .error .indexError
    | c :: rest =>
      if rest.any (fun x => x.comm ≠ c.comm) then .error .valueError
      else if names.length ≠ (c :: rest).length then .error .valueError
      else .ok ⟨c.comm, update (speciesAttrs (names.zip (c :: rest)) [(sSpecies, .names ref)]) kwargs, sourcesOf (names.zip (c :: rest))⟩

/-- `self.species`, that is `self.attrs['species']` (species.py 84-89), as a list of names; another object there is not a list of names. -/
def species (ls : Lists) (m : Multi) : Except Err (List Tok) :=
  match get sSpecies m.attrs with
  | some (.names r) => .ok (ls.getD r [])
  | some (.val _) => .error .typeError
  | none => .error .keyError

/-- `self._sources[name]`. -/
def source (m : Multi) (name : Tok) : Except Err Cat :=
  match get name m.sources with
  | some c => .ok c
  | none => .error .keyError

/-- The columns of the species, with their prefix. -/
def columnsOf (m : Multi) : List Tok → Except Err (List Tok)
  | [] => .ok []
  | s :: rest => do
    let c ← source m s
    let l ← columnsOf m rest
    .ok (c.columns.map (fun x => s ++ '/' :: x) ++ l)

/-- `columns` (species.py 91-99). -/
def columns (ls : Lists) (m : Multi) : Except Err (List Tok) := (species ls m).bind (columnsOf m)

/-- `str.split('/')`. -/
def splitSlash : List Char → List Tok
  | [] => [[]]
  | c :: cs =>
    if c = '/' then [] :: splitSlash cs
    else match splitSlash cs with
      | [] => [[c]]
      | f :: fs => (c :: f) :: fs

/-- What `cat[key]` of a string gives: the catalog of a species, or a column of one (species.py 110-127, 248-262). -/
inductive Item where
  | catalog (c : Cat)
  | column (c : Cat) (col : Tok)
  deriving DecidableEq, Repr

/-- `cat[key]` (species.py 118-127). -/
def getitem (ls : Lists) (m : Multi) (key : Tok) : Except Err Item := do
  let sp ← species ls m
  if key ∈ sp then do
    let c ← source m key
    .ok (.catalog c)
  else
    match splitSlash key with
    | [s, col] =>
      if s ∈ sp then do
        let c ← source m s
        if col ∈ c.columns then .ok (.column c col) else .error .valueError
      else .error .valueError
    | _ => .error .valueError

/-- `numpy.equal(a, b).all()`; `none` if numpy cannot bring the shapes together. -/
def equalAll : Meta → Meta → Option Bool
  | .none, .none => some true
  | .num x, .num y => some (x == y)
  | .num x, .vec l => some (l.all fun y => x == y)
  | .vec l, .num y => some (l.all fun x => x == y)
  | .vec l, .vec l' =>
    if l.length = l'.length then some (l == l')
    else match l, l' with
      | [x], _ => some (l'.all fun y => x == y)
      | _, [y] => some (l.all fun x => x == y)
      | _, _ => none
  | .other a, .other b => some (a == b)
  | _, _ => some false

/-- `attrs[key]` as a value; the list of names is no number. -/
def valOf : Attr → Meta
  | .val m => m
  | .names r => .other r

/-- The values of `name` found: that of the catalog itself, then those of the species (species.py 231-239). -/
def found (name : Tok) (attrs : Dict Attr) (sp : List Tok) : List Meta :=
  (match get name attrs with | some a => [valOf a] | none => []) ++
    sp.filterMap fun s => (get (s ++ '.' :: name) attrs).map valOf

/-- `check_species_metadata(name, attrs, species)` (species.py 226-246). -/
def checkMeta (name : Tok) (attrs : Dict Attr) (sp : List Tok) : Except Err Meta :=
  match found name attrs sp with
  | [] => .error .valueError
  | v :: rest =>
    if (v :: rest).all (fun w => equalAll v w == some true) then .ok v else .error .valueError

/-- The keywords of `to_mesh` (species.py 157-159). -/
structure Opts where
  nmesh : Option Meta := none
  boxSize : Option Meta := none
  dtype : Nat := 0
  interlaced : Bool := false
  compensated : Bool := false
  resampler : Nat := 0
  position : Tok := ['P']
  selection : Tok := ['S']
  weight : Tok := ['W']
  value : Tok := ['V']
  window : Bool := false
  deriving DecidableEq, Repr

/-- A mesh: the attributes `BoxSize` and `Nmesh` as vectors (also the grid `pm`), the columns painted (`none` for the mesh of several species),
the flags, and the other attributes. -/
structure Mesh where
  src : Nat
  boxSize : List ℚ
  nmesh : List Int
  dtype : Nat
  interlaced : Bool
  compensated : Bool
  resampler : Nat
  position : Option Tok
  selection : Option Tok
  weight : Option Tok
  value : Option Tok
  attrs : Dict Attr
  actions : List Nat
  deriving DecidableEq, Repr

/-- The vector of mesh sizes: three equal ones from a number, integers by truncation (base/mesh.py 43-49). -/
def meshVec : Meta → Except Err (List Int)
  | .num x => .ok (List.replicate 3 (if 0 ≤ x then ⌊x⌋ else ⌈x⌉))
  | .vec l => .ok (l.map fun x => if 0 ≤ x then ⌊x⌋ else ⌈x⌉)
  | .none => .error .valueError
  | .other _ => .error .typeError

/-- The box of `ParticleMesh`: broadcast to the number of dimensions of the mesh (base/mesh.py 50-53). -/
def boxVec (ndim : Nat) : Meta → Except Err (List ℚ)
  | .num x => .ok (List.replicate ndim x)
  | .vec [x] => .ok (List.replicate ndim x)
  | .vec l => if l.length = ndim then .ok l else .error .valueError
  | .none => .error .valueError
  | .other _ => .error .typeError

/-- `CatalogMesh.__init__` (source/mesh/catalog.py 60-95, base/mesh.py 34-58): the attributes of the source, with box and mesh put over them. -/
def catalogMesh (src : Nat) (attrs : Dict Attr) (nmesh boxSize : Meta) (o : Opts) (pos sel wei val : Option Tok) : Except Err Mesh :=
  if nmesh = .none ∨ boxSize = .none then .error .valueError
  else do
    let n ← meshVec nmesh
    let b ← boxVec n.length boxSize
    .ok ⟨src, b, n, o.dtype, o.interlaced, o.compensated, o.resampler, pos, sel, wei, val,
      put sNmesh (.val (.vec (n.map fun (k : Int) => (k : ℚ)))) (put sBoxSize (.val (.vec b)) attrs), []⟩

/-- The columns that every species must have: `for name in self.species: for col in [...]` (species.py 197-200). -/
def checkColumns (m : Multi) (cols : List Tok) : List Tok → Except Err Unit
  | [] => .ok ()
  | s :: rest => do
    let c ← source m s
    if cols.all (fun x => x ∈ c.columns) then checkColumns m cols rest else .error .valueError

/-- The mesh of several species: the mesh and the names of the columns (source/mesh/species.py 44-71). `names` is the list of species,
`cat` the catalog it was made from. -/
structure MultiMesh where
  mesh : Mesh
  cat : Multi
  opts : Opts
  deriving DecidableEq, Repr

/-- A parameter of the mesh: the keyword, or `check_species_metadata` (species.py 206-212). -/
def chosen (given : Option Meta) (name : Tok) (attrs : Dict Attr) (sp : List Tok) : Except Err Meta :=
  match given with
  | some v => .ok v
  | none => checkMeta name attrs sp

/-- `to_mesh` (species.py 157-223). -/
def toMesh (ls : Lists) (m : Multi) (o : Opts) : Except Err MultiMesh :=
  if o.window then .error .runtimeError
  else do
    let sp ← species ls m
    checkColumns m [o.position, o.selection, o.weight, o.value] sp
    let b ← chosen o.boxSize sBoxSize m.attrs sp
    let n ← chosen o.nmesh sNmesh m.attrs sp
    let mesh ← catalogMesh 0 m.attrs n b o none none none none
    .ok ⟨mesh, m, o⟩

/-- The options of the mesh as they are now: the flags are attributes that can be set (source/mesh/species.py 93-103). -/
def current (mm : MultiMesh) : Opts :=
  { mm.opts with
    dtype := mm.mesh.dtype
    interlaced := mm.mesh.interlaced
    compensated := mm.mesh.compensated
    resampler := mm.mesh.resampler }

/-- `mesh[key]` (source/mesh/species.py 76-108): a mesh of the catalog of the species with the parameters of this one; `__finalize__`
(base/mesh.py 61-79) puts the attributes of the whole over those of the species and takes over the actions. -/
def meshItem (ls : Lists) (mm : MultiMesh) (key : Tok) : Except Err Mesh := do
  let sp ← species ls mm.cat
  if key ∈ sp then do
    let c ← source mm.cat key
    if [mm.opts.weight, mm.opts.value, mm.opts.selection, mm.opts.position].all (fun x => x ∈ c.columns) then do
      let r ← catalogMesh c.id (c.attrs.map fun q => (q.1, .val q.2)) (.vec (mm.mesh.nmesh.map fun (k : Int) => (k : ℚ)))
        (.vec mm.mesh.boxSize) (current mm)
        (some mm.opts.position) (some mm.opts.selection) (some mm.opts.weight) (some mm.opts.value)
      .ok { r with attrs := update r.attrs mm.mesh.attrs, actions := mm.mesh.actions }
    else .error .valueError
  else .error .keyError

end NBK.SpecObj
