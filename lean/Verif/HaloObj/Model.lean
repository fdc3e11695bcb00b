import Mathlib.Algebra.Order.Ring.Rat

/-!
# Model of the `HaloCatalog` object and of the HOD models it is populated with (nbodykit/source/catalog/halos.py 10-269, nbodykit/hod.py,
nbodykit/transform.py 376-486, nbodykit/tutorials/halos.py 35-100)

The halo catalog keeps a reference to its source, so that every method takes the source as it is at that time. A column is the list of its rows on each rank.
Dictionaries are functions from keys to optional values. The formulas of cosmology and of halotools are given by the environment; `halotools` objects are the
arguments they were made with. Chunks of dask arrays are not modelled: an array holds its rows. Numbers are rational.
-/
namespace NBK.HaloObj

inductive Err where
  | valueError | typeError | keyError | indexError | assertionError | notImplemented | other
  deriving DecidableEq, Repr

abbrev Dict (α : Type) := String → Option α

def Dict.empty {α : Type} : Dict α := fun _ => none

/-- `d[key] = v`. -/
def Dict.set {α : Type} (d : Dict α) (k : String) (v : α) : Dict α := fun x => if x = k then some v else d x

/-- `del d[key]`. -/
def Dict.del {α : Type} (d : Dict α) (k : String) : Dict α := fun x => if x = k then none else d x

/-- `d.update(e)`. -/
def Dict.merge {α : Type} (d e : Dict α) : Dict α := fun x => (e x).or (d x)

/-- `d.setdefault(key, v)`. -/
def Dict.setDefault {α : Type} (d : Dict α) (k : String) (v : α) : Dict α := fun x => if x = k then some ((d k).getD v) else d x

/-- The values of `attrs`. -/
inductive Val where
  | num (q : ℚ)
  | vec (l : List ℚ)
  | text (s : String)
  | pars (l : List (String × ℚ))
  deriving DecidableEq, Repr

/-- A column: the number of components of a row (`none` for one dimension) and the rows of each rank. -/
structure Col where
  width : Option Nat
  ranks : List (List (List ℚ))
  deriving DecidableEq, Repr

/-- The catalog of the particles that are interpreted as halos. -/
structure Source where
  cols : Dict Col
  attrs : Dict Val
  sizes : List Nat

/-- What is passed as `source`: a catalog, another object that answers `in`, or one that does not. -/
inductive Arg where
  | cat (s : Source)
  | container (names : List String)
  | silent

/-- The formulas that are used. `C` are the cosmologies; `pars` is what `dict(cosmo)` gives, `root` is the power 0.33333. -/
structure Env (C : Type) where
  pars : C → List (String × ℚ)
  efunc : C → ℚ → ℚ
  conc : C → String → ℚ → ℚ → ℚ
  radius : C → String → ℚ → ℚ → ℚ
  root : ℚ → ℚ

/-! ## Formulas for halos (transform.py 376-486) -/

/-- An array argument: a number or a list. -/
inductive Arr where
  | scalar (q : ℚ)
  | list (l : List ℚ)
  deriving DecidableEq, Repr

/-- `da.broadcast_arrays(mass, redshift)`; the shapes must agree or be one. The result pairs the values. -/
def broadcast : Arr → Arr → Except Err (List (ℚ × ℚ))
  | .scalar a, .scalar b => .ok [(a, b)]
  | .scalar a, .list l => .ok (l.map fun b => (a, b))
  | .list l, .scalar b => .ok (l.map fun a => (a, b))
  | .list l, .list m =>
    if l.length = m.length then .ok (l.zip m)
    else if m.length = 1 then .ok (l.flatMap fun a => m.map fun b => (a, b))
    else if l.length = 1 then .ok (l.flatMap fun a => m.map fun b => (a, b))
    else .error .valueError

/-- `HaloConcentration` (transform.py 376-423): for each block a profile with the redshifts of the block. -/
def haloConcentration {C : Type} (e : Env C) (c : C) (mdef : String) (mass redshift : Arr) : Except Err (List ℚ) :=
  (broadcast mass redshift).map fun l => l.map fun p => e.conc c mdef p.2 p.1

/-- `HaloRadius` (transform.py 440-486). -/
def haloRadius {C : Type} (e : Env C) (c : C) (mdef : String) (mass redshift : Arr) : Except Err (List ℚ) :=
  (broadcast mass redshift).map fun l => l.map fun p => e.radius c mdef p.2 p.1

/-- `HaloVelocityDispersion` (transform.py 425-438): `mdef` is not used. -/
def haloVelocityDispersion {C : Type} (e : Env C) (c : C) (_mdef : String) (mass redshift : Arr) : Except Err (List ℚ) :=
  (broadcast mass redshift).map fun l => l.map fun p => 1100 * e.root (e.efunc c p.2 * p.1 / 1000000000000000)

/-! ## The object (halos.py 35-132) -/

structure Halo (C : Type) where
  cosmo : C
  attrs : Dict Val
  sizes : List Nat
  overrides : Dict Col

/-- The checks of the columns (halos.py 38-45): `none` goes on. -/
def checkColumns (contains : String → Option Bool) : List (Option String) → Option Err
  | [] => none
  | none :: _ => some .valueError
  | some c :: l =>
    match contains c with
    | none => some .typeError
    | some false => some .valueError
    | some true => checkColumns contains l

/-- `col in source`; `none` when the object has no `in`. The columns of a catalog include the defaults of the class. -/
def Arg.contains : Arg → String → Option Bool
  | .cat s, c => some ((s.cols c).isSome || c ∈ ["Selection", "Weight", "Value"])
  | .container l, c => some (l.contains c)
  | .silent, _ => none

/-- `attrs` of a new catalog (halos.py 55-68). -/
def attrsOf {C : Type} (e : Env C) (src : Dict Val) (cosmo : C) (z : ℚ) (mdef mass position velocity : String) : Dict Val :=
  (((((((((Dict.empty.merge src).set "redshift" (.num z)).set "cosmo" (.pars (e.pars cosmo))).set "mass" (.text mass)).set "velocity" (.text velocity)).set
    "position" (.text position)).set "mdef" (.text mdef)).set "halo_mass_key" (.text ("halo_m" ++ mdef))).set "halo_radius_key" (.text ("halo_r" ++ mdef)))

/-- `__init__` (halos.py 35-74). -/
def new {C : Type} (e : Env C) (source : Arg) (cosmo : C) (z : ℚ) (mdef : String) (mass position velocity : Option String) : Except Err (Halo C) :=
  match checkColumns source.contains [mass, position, velocity] with
  | some x => .error x
  | none =>
    match source with
    | .cat s => .ok ⟨cosmo, attrsOf e s.attrs cosmo z mdef (mass.getD "") (position.getD "") (velocity.getD ""), s.sizes, Dict.empty⟩
    | _ => .error .typeError

/-- `self.attrs[key]` of a text and of a number; anything else is an error. -/
def Halo.text {C : Type} (h : Halo C) (k : String) : Except Err String :=
  match h.attrs k with
  | none => .error .keyError
  | some (.text s) => .ok s
  | some _ => .error .other

def Halo.num {C : Type} (h : Halo C) (k : String) : Except Err ℚ :=
  match h.attrs k with
  | none => .error .keyError
  | some (.num q) => .ok q
  | some _ => .error .other

/-- A default column (catalog.py 1166-1215): a constant on every rank. -/
def defaultCol (sizes : List Nat) (name : String) : Option Col :=
  if name ∈ ["Selection", "Weight", "Value"] then some ⟨none, sizes.map fun n => List.replicate n [1]⟩ else none

/-- `source[col]`. -/
def Source.read (s : Source) (c : String) : Except Err Col :=
  match (s.cols c).or (defaultCol s.sizes c) with
  | none => .error .keyError
  | some v => .ok v

/-- Apply a function to every number of a column. -/
def Col.mapRows (c : Col) (f : List ℚ → List ℚ) : Col := ⟨c.width, c.ranks.map fun l => l.map f⟩

/-- The columns that come from the source (halos.py 76-95), unless they have been set. -/
def Halo.base {C : Type} (h : Halo C) (s : Source) (name key : String) : Except Err Col :=
  match h.overrides name with
  | some v => .ok v
  | none => (h.text key).bind s.read

/-- Evaluate one of the formulas on the masses of every rank; masses of several components are not modelled. -/
def onRanks (f : Arr → Except Err (List ℚ)) : List (List (List ℚ)) → Except Err (List (List (List ℚ)))
  | [] => .ok []
  | l :: r => (f (.list (l.map fun x => x.headD 0))).bind fun v => (onRanks f r).map fun w => v.map (fun q => [q]) :: w

/-- `self[name]` (halos.py 76-132, catalog.py 336-360). -/
def Halo.read {C : Type} (e : Env C) (s : Source) (h : Halo C) (name : String) : Except Err Col :=
  match h.overrides name with
  | some v => .ok v
  | none =>
    if name = "Mass" then h.base s "Mass" "mass"
    else if name = "Position" then h.base s "Position" "position"
    else if name = "Velocity" then h.base s "Velocity" "velocity"
    else if name = "VelocityOffset" then
      (h.num "redshift").bind fun z => (h.base s "Velocity" "velocity").map fun v =>
        v.mapRows fun l => l.map fun x => x * ((1 + z) / (100 * e.efunc h.cosmo z))
    else if name = "Concentration" then
      (h.num "redshift").bind fun z => (h.text "mdef").bind fun mdef => (h.base s "Mass" "mass").bind fun m =>
        (onRanks (fun a => haloConcentration e h.cosmo mdef a (.scalar z)) m.ranks).map fun r => ⟨m.width, r⟩
    else if name = "Radius" then
      (h.num "redshift").bind fun z => (h.text "mdef").bind fun mdef => (h.base s "Mass" "mass").bind fun m =>
        (onRanks (fun a => haloRadius e h.cosmo mdef a (.scalar z)) m.ranks).map fun r => ⟨m.width, r⟩
    else
      match defaultCol h.sizes name with
      | some v => .ok v
      | none => .error .keyError

def hardNames : List String := ["Concentration", "Mass", "Position", "Radius", "Velocity", "VelocityOffset"]

/-! ## Changing the catalogs -/

/-- A column has the number of rows of each rank. -/
def Col.fits (c : Col) (sizes : List Nat) : Bool := c.ranks.map List.length = sizes

/-- What can be done to the two catalogs: setting and deleting columns (catalog.py 362-405, 946-965), changing `attrs`. -/
inductive Op where
  | setSource (name : String) (v : Col)
  | delSource (name : String)
  | setHalo (name : String) (v : Col)
  | delHalo (name : String)
  | setAttr (key : String) (v : Val)

/-- One operation; the second component is the exception. The columns of the source count as set by the user. -/
def step {C : Type} (st : Source × Halo C) : Op → (Source × Halo C) × Option Err
  | .setSource n v => if v.fits st.1.sizes then (({ st.1 with cols := st.1.cols.set n v }, st.2), none) else (st, some .assertionError)
  | .delSource n => if (st.1.cols n).isSome then (({ st.1 with cols := st.1.cols.del n }, st.2), none) else (st, some .valueError)
  | .setHalo n v => if v.fits st.2.sizes then ((st.1, { st.2 with overrides := st.2.overrides.set n v }), none) else (st, some .assertionError)
  | .delHalo n =>
    if n ∈ hardNames then (st, some .valueError)
    else if (st.2.overrides n).isSome then ((st.1, { st.2 with overrides := st.2.overrides.del n }), none)
    else (st, some .valueError)
  | .setAttr k v => ((st.1, { st.2 with attrs := st.2.attrs.set k v }), none)

def run {C : Type} (st : Source × Halo C) : List Op → Source × Halo C
  | [] => st
  | o :: l => run (step st o).1 l

/-- Rows selected by a boolean array on each rank. -/
def pick {α : Type} (mask : List Bool) (l : List α) : List α := ((mask.zip l).filter fun p => p.1).map Prod.snd

def Col.pick (c : Col) (masks : List (List Bool)) : Col := ⟨c.width, (masks.zip c.ranks).map fun p => HaloObj.pick p.1 p.2⟩

/-- `halos[index]` with boolean arrays (catalog.py 247-302): the columns that are not defaults become columns that have been set; the attributes are those of the
catalog (the dictionary itself is shared, which is not modelled here). `extra` are the further names of columns that were set. -/
def Halo.slice {C : Type} (e : Env C) (s : Source) (h : Halo C) (extra : List String) (masks : List (List Bool)) : Except Err (Halo C) :=
  if masks.map List.length ≠ h.sizes then .error .keyError else
  ((hardNames ++ extra).foldlM (fun (d : Dict Col) n => (h.read e s n).map fun v => d.set n (v.pick masks)) Dict.empty).map fun d =>
    { h with sizes := masks.map fun m => m.count true, overrides := d }

/-! ## `to_halotools` (halos.py 134-200) -/

/-- A keyword of `UserSuppliedHaloCatalog`: an array on each rank, a value, the cosmology. -/
inductive KW (C : Type) where
  | arr (l : List (List ℚ))
  | val (v : Val)
  | cosmo (c : C)

/-- `column[:,i]`. -/
def Col.comp (c : Col) (i : Nat) : Except Err (List (List ℚ)) :=
  match c.width with
  | none => .error .indexError
  | some w => if i < w then .ok (c.ranks.map fun l => l.map fun x => x.getD i 0) else .error .indexError

/-- The array of a one-dimensional column. -/
def Col.flat (c : Col) : List (List ℚ) := c.ranks.map fun l => l.map fun x => x.headD 0

/-- `self.Index` on every rank (catalog.py 1190-1202). -/
def index : Nat → List Nat → List (List ℚ)
  | _, [] => []
  | o, n :: l => ((List.range n).map fun i => ((o + i : Nat) : ℚ)) :: index (o + n) l

/-- The columns and attributes that are needed; in the order in which they are looked up. -/
structure Data where
  box : Val
  pos : Col
  vel : Col
  mass : Col
  radius : Col
  conc : Col
  mkey : String
  rkey : String

def Halo.data {C : Type} (e : Env C) (s : Source) (h : Halo C) (box : Option Val) : Except Err Data :=
  if h.sizes.sum = 0 then .error .valueError else
  match box.or (h.attrs "BoxSize") with
  | none => .error .valueError
  | some b =>
    (h.read e s "Position").bind fun p => (h.read e s "Velocity").bind fun v => (h.read e s "Mass").bind fun m =>
    (h.read e s "Radius").bind fun r => (h.read e s "Concentration").bind fun c =>
    (h.text "halo_mass_key").bind fun mk => (h.text "halo_radius_key").bind fun rk => .ok ⟨b, p, v, m, r, c, mk, rk⟩

/-- The dictionary of keywords. -/
def Data.table {C : Type} (d : Data) (sizes : List Nat) (x y z vx vy vz : List (List ℚ)) : Dict (KW C) :=
  ((((((((((((((Dict.empty).set "halo_x" (.arr x)).set "halo_y" (.arr y)).set "halo_z" (.arr z)).set "halo_vx" (.arr vx)).set "halo_vy" (.arr vy)).set
    "halo_vz" (.arr vz)).set d.mkey (.arr d.mass.flat)).set d.rkey (.arr d.radius.flat)).set "halo_nfw_conc" (.arr d.conc.flat)).set
    "halo_id" (.arr (index 0 sizes))).set "halo_hostid" (.arr (index 0 sizes))).set
    "halo_upid" (.arr (d.pos.ranks.map fun l => l.map fun _ => 0 - 1))).set
    "halo_local_id" (.arr (sizes.map fun n => (List.range n).map fun (i : Nat) => (i : ℚ))))

/-- `to_halotools` (halos.py 134-200): the keywords of the halotools catalog. -/
def Halo.toHalotools {C : Type} (e : Env C) (s : Source) (h : Halo C) (box : Option Val) : Except Err (Dict (KW C)) :=
  (h.data e s box).bind fun d =>
  (d.pos.comp 0).bind fun x => (d.pos.comp 1).bind fun y => (d.pos.comp 2).bind fun z =>
  (d.vel.comp 0).bind fun vx => (d.vel.comp 1).bind fun vy => (d.vel.comp 2).bind fun vz =>
    match h.attrs "redshift", h.attrs "mdef" with
    | some red, some mdef =>
      .ok ((((((d.table h.sizes x y z vx vy vz).set "cosmology" (.cosmo h.cosmo)).set "redshift" (.val red)).set "Lbox" (.val d.box)).set
        "particle_mass" (.val ((h.attrs "particle_mass").getD (.num 1)))).set "mdef" (.val mdef))
    | _, _ => .error .keyError

/-! ## HOD models (hod.py) -/

/-- The cosmology passed to a model: that of nbodykit or that of astropy. -/
inductive Cosmo (C : Type) where
  | nbodykit (c : C)
  | astropy (c : C)
  deriving DecidableEq

/-- Values of keywords of halotools models. -/
inductive HV (C : Type) where
  | flag (b : Bool)
  | num (q : ℚ)
  | text (s : String)
  | cosmo (c : Cosmo C)
  | cenocc
  deriving DecidableEq

/-- A component of a halotools model: its class and its keywords. -/
structure Comp (C : Type) where
  cls : String
  kw : Dict (HV C)

/-- A halotools model: the parts of `HodModelFactory`, or the name and the keywords of `PrebuiltHodModelFactory`. -/
inductive HModel (C : Type) where
  | composite (cenocc censprof satocc satsprof : Comp C)
  | prebuilt (name : String) (kw : Dict (HV C))

/-- A call `f(a=…, b=…, **kwargs)`: a repeated name is a TypeError. -/
def callKw {C : Type} (given : List (String × HV C)) (kwargs : Dict (HV C)) : Except Err (Dict (HV C)) :=
  if given.any fun p => (kwargs p.1).isSome then .error .typeError
  else .ok (given.foldl (fun d p => d.set p.1 p.2) kwargs)

/-- `cosmo.to_astropy()` for a cosmology of nbodykit (hod.py 89-90, 168-169). -/
def toAstropy {C : Type} : Cosmo C → Cosmo C
  | .nbodykit c => .astropy c
  | c => c

/-- `Zheng07Model.to_halotools` (hod.py 56-120). -/
def zheng {C : Type} (cosmo : Cosmo C) (z : ℚ) (mdef : String) (concKey : Option String) (kwargs : Dict (HV C)) : Except Err (HModel C) :=
  let kw := kwargs.setDefault "modulate_with_cenocc" (.flag true)
  let conc := if concKey.isNone then "dutton_maccio14" else "direct_from_halo_catalog"
  (callKw [("prim_haloprop_key", .text ("halo_m" ++ mdef))] kw).bind fun cen =>
  (callKw [("prim_haloprop_key", .text ("halo_m" ++ mdef)), ("cenocc_model", .cenocc)] kw).bind fun sat =>
    let kw := ((kw.set "cosmology" (.cosmo (toAstropy cosmo))).set "redshift" (.num z)).set "mdef" (.text mdef)
    (callKw [("conc_mass_model", .text conc)] kw).bind fun prof =>
      .ok (.composite ⟨"Zheng07Cens", cen⟩ ⟨"TrivialPhaseSpace", kw⟩ ⟨"Zheng07Sats", sat⟩ ⟨"NFWPhaseSpace", prof⟩)

/-- `to_halotools` of the classes that `HODModelFactory` makes (hod.py 140-180): `concentration_key` is not used. -/
def prebuilt {C : Type} (name : String) (cosmo : Cosmo C) (z : ℚ) (mdef : String) (_concKey : Option String) (kwargs : Dict (HV C)) :
    Except Err (HModel C) :=
  let kw := kwargs.setDefault "modulate_with_cenocc" (.flag true)
  .ok (.prebuilt name ((((kw.set "cosmology" (.cosmo (toAstropy cosmo))).set "redshift" (.num z)).set "mdef" (.text mdef)).set
    "prim_haloprop_key" (.text ("halo_m" ++ mdef))))

/-- The classes: the base, `Zheng07Model`, and those of the factory (hod.py 182-189). -/
inductive Cls where
  | base | zheng | leauthaud | hearin
  deriving DecidableEq, Repr

def Cls.toHalotools {C : Type} (c : Cls) (cosmo : Cosmo C) (z : ℚ) (mdef : String) (concKey : Option String) (kwargs : Dict (HV C)) :
    Except Err (HModel C) :=
  match c with
  | .base => .error .notImplemented
  | .zheng => HaloObj.zheng cosmo z mdef concKey kwargs
  | .leauthaud => prebuilt "leauthaud11" cosmo z mdef concKey kwargs
  | .hearin => prebuilt "hearin15" cosmo z mdef concKey kwargs

/-- What is passed as `model`: one of the classes, an instance of one, a halotools model, another class, something else. -/
inductive ModelArg (C : Type) where
  | cls (c : Cls)
  | inst (c : Cls)
  | halotools (m : HModel C)
  | otherClass
  | otherObject

/-- The model (halos.py 250-257). `issubclass` of something that is no class is a TypeError. -/
def resolve {C : Type} (h : Halo C) : ModelArg C → Except Err (HModel C)
  | .cls c => (h.num "redshift").bind fun z => (h.text "mdef").bind fun mdef =>
      c.toHalotools (.nbodykit h.cosmo) z mdef (some "halo_nfw_conc") Dict.empty
  | .inst _ => .error .typeError
  | .halotools m => .ok m
  | .otherClass => .error .typeError
  | .otherObject => .error .typeError

/-- The beginning of `populate` (halos.py 246-266): the model, which is kept, and the halotools catalog. What follows is `Populate.populateMock`. -/
def Halo.prepare {C : Type} (e : Env C) (s : Source) (h : Halo C) (model : ModelArg C) (box : Option Val) :
    Except Err (HModel C × Dict (KW C)) :=
  (resolve h model).bind fun m => (h.toHalotools e s box).map fun k => (m, k)

/-! ## `DemoHaloCatalog` (tutorials/halos.py 35-100) -/

/-- The file in the cache: its columns, the attributes of the file, the sizes on the ranks, and the metadata. -/
structure Cached where
  file : Source
  lbox : Val
  redshift : ℚ
  particleMass : ℚ

/-- On the root: the file of the cache, else after downloading, else the exception (tutorials/halos.py 46-67), which all ranks raise. -/
def locate (cached : Except Err Cached) (download : Except Err Unit) (again : Except Err Cached) : Except Err Cached :=
  match cached with
  | .ok c => .ok c
  | .error _ => download.bind fun _ => again

/-- `StackColumns` of three columns of the file. -/
def stack (a b c : Col) : Col :=
  ⟨some 3, (a.ranks.zip (b.ranks.zip c.ranks)).map fun p => (p.1.zip (p.2.1.zip p.2.2)).map fun q => [q.1.headD 0, q.2.1.headD 0, q.2.2.headD 0]⟩

/-- The catalog and its source (tutorials/halos.py 70-100). -/
def demo {C : Type} (e : Env C) (cosmo : C) (found : Except Err Cached) : Except Err (Source × Halo C) :=
  found.bind fun f =>
  (f.file.read "halo_x").bind fun x => (f.file.read "halo_y").bind fun y => (f.file.read "halo_z").bind fun z =>
  (f.file.read "halo_vx").bind fun vx => (f.file.read "halo_vy").bind fun vy => (f.file.read "halo_vz").bind fun vz =>
  let s : Source := { f.file with cols := (f.file.cols.set "Position" (stack x y z)).set "Velocity" (stack vx vy vz) }
  (new e (.cat s) cosmo f.redshift "vir" (some "halo_mvir") (some "Position") (some "Velocity")).map fun h =>
    (s, ⟨h.cosmo, (((h.attrs.set "BoxSize" f.lbox).set "redshift" (.num f.redshift)).set "particle_mass" (.num f.particleMass)).set
      "cosmo" (.pars (e.pars cosmo)), h.sizes, h.overrides⟩)

end NBK.HaloObj
