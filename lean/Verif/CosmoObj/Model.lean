import Verif.Cosmo.Model
import Mathlib.Data.String.Basic
import Mathlib.Data.List.Dedup
import Mathlib.Data.List.Sort
import Mathlib.Data.Rat.Floor

set_option linter.unusedSimpArgs false

/-!
# Model of the `Cosmology` object (nbodykit/cosmology/cosmology.py)

`Verif.Cosmo` has the parameters of a cosmology (`compile_args`, `clone`, the conversion from astropy).  Here is the object
around them: the call with positional arguments and with the old names, the delegate classes of classylss that are made on
first use, setting attributes, `dir`, and the dictionary of parameters as a mutable object that others may hold too.

The classes of classylss are external (`Lib`): which attributes a class has, whether an instance can be made from an engine,
and the value of an attribute.  An engine is made from the parameters it is given and does not change afterwards.
-/
namespace NBK.CosmoObj

open NBK.Cosmo (Dict Val)

/-- Python exceptions raised by the modelled code; `classError` is raised in CLASS. -/
inductive Err where
  | valueError | typeError | keyError | indexError | attributeError | classError
  deriving DecidableEq, Repr

/-- The exceptions of `Verif.Cosmo`. -/
def liftErr : Cosmo.Err → Err
  | .valueError => .valueError
  | .typeError => .typeError
  | .keyError => .keyError
  | .indexError => .indexError
  | .deprecated => .valueError

/-- A result of `Verif.Cosmo`. -/
def lift {β : Type} : Except Cosmo.Err β → Except Err β
  | .ok b => .ok b
  | .error e => .error (liftErr e)

/-- The delegate classes. -/
inductive Iface where
  | astropy | thermo | spectra | perturbs | primordial | background | engine
  deriving DecidableEq, Repr

/-- `dro` (cosmology.py 115): the order in which attributes are looked up. -/
def dro : List Iface := [.astropy, .thermo, .spectra, .perturbs, .primordial, .background, .engine]

/-- The names of the classes, the keys of `dro_dict` (cosmology.py 116). -/
def Iface.name : Iface → String
  | .astropy => "AstropyCompat"
  | .thermo => "Thermo"
  | .spectra => "Spectra"
  | .perturbs => "Perturbs"
  | .primordial => "Primordial"
  | .background => "Background"
  | .engine => "ClassEngine"

/-- classylss. -/
structure Lib (α : Type) where
  /-- `hasattr(iface, name)` of the class -/
  has : Iface → String → Bool
  /-- `dir(iface)` -/
  names : Iface → List String
  /-- `iface(engine)` for an engine with these parameters -/
  make : Iface → Dict → Except Err Unit
  /-- the value of an attribute of the instance -/
  attr : Iface → Dict → String → Except Err α
  /-- the sum of two values -/
  plus : α → α → α

/-- The values of instance attributes: an engine, the table of the delegates made (with the parameters of their engine), a
dictionary held by reference, the stored arguments, or anything else. -/
inductive V (α : Type) where
  | engine (p : Dict)
  | delegates (l : List (Iface × Dict))
  | dict (r : Nat)
  | args (l : List Val)
  | kwargs (l : List (String × Val))
  | any (a : α)

/-- A `Cosmology`: its instance attributes. -/
structure Obj (α : Type) where
  inst : String → Option (V α)

/-- What `getattr` gives: an attribute of a delegate, a delegate itself, an instance attribute, or a method of the class. -/
inductive Got (α : Type) where
  | attr (a : α)
  | delegate (i : Iface) (p : Dict)
  | inst (v : V α)
  | own (n : String)

/-- An object without attributes (`object.__new__(Cosmology)`, cosmology.py 416). -/
def bare {α : Type} : Obj α := ⟨fun _ => none⟩

/-- `object.__setattr__` -/
def Obj.put {α : Type} (c : Obj α) (k : String) (v : V α) : Obj α := ⟨fun x => if x = k then some v else c.inst x⟩

/-- The properties of the class (cosmology.py 231-251). -/
def properties : List String := ["sigma8", "Omega0_cb"]

/-- The other names of the class and of `object`, as far as they are plain attributes: an instance attribute comes first. -/
def ownNames : List String := ["dro", "dro_dict", "match", "to_astropy", "from_astropy", "from_file", "from_dict", "clone", "__init__", "__str__",
  "__iter__", "__dir__", "__setattr__", "__getattr__", "__getstate__", "__setstate__"]

/-- The names of the delegates. -/
def ifaceNames : List String := dro.map Iface.name

/-- The delegate of a class (cosmology.py 212-216 and 220-223): from the table or new, in which case it is entered. -/
def delegate {α : Type} (L : Lib α) (c : Obj α) (i : Iface) : Except Err Dict × Obj α :=
  match c.inst "delegates" with
  | some (.delegates l) =>
    match l.lookup i with
    | some p => (.ok p, c)
    | none =>
      match c.inst "engine" with
      | some (.engine p) =>
        match L.make i p with
        | .ok _ => (.ok p, c.put "delegates" (.delegates (l ++ [(i, p)])))
        | .error e => (.error e, c)
      | some _ => (.error .typeError, c)
      | none => (.error .attributeError, c)
  | some _ => (.error .typeError, c)
  | none => (.error .attributeError, c)

/-- `__getattr__` (cosmology.py 207-226). -/
def dunder {α : Type} (L : Lib α) (c : Obj α) (n : String) : Except Err (Got α) × Obj α :=
  match dro.find? fun i => i.name = n with
  | some i =>
    match delegate L c i with
    | (.ok p, c1) => (.ok (.delegate i p), c1)
    | (.error e, c1) => (.error e, c1)
  | none =>
    match dro.find? fun i => L.has i n with
    | some i =>
      match delegate L c i with
      | (.ok p, c1) => ((L.attr i p n).map .attr, c1)
      | (.error e, c1) => (.error e, c1)
    | none => (.error .attributeError, c)

/-- `self.Spectra.name`, in a property: an instance attribute of the name of the class comes first and has no such attribute. -/
def through {α : Type} (L : Lib α) (c : Obj α) (i : Iface) (n : String) : Except Err α × Obj α :=
  match c.inst i.name with
  | some _ => (.error .attributeError, c)
  | none =>
    match delegate L c i with
    | (.ok p, c1) => (L.attr i p n, c1)
    | (.error e, c1) => (.error e, c1)

/-- The getters of the properties (cosmology.py 231-251). -/
def property {α : Type} (L : Lib α) (c : Obj α) (n : String) : Except Err α × Obj α :=
  if n = "sigma8" then through L c .spectra "sigma8"
  else
    match through L c .background "Omega0_cdm" with
    | (.error e, c1) => (.error e, c1)
    | (.ok a, c1) =>
      match through L c1 .background "Omega0_b" with
      | (.error e, c2) => (.error e, c2)
      | (.ok b, c2) => (.ok (L.plus a b), c2)

/-- `getattr(c, n)`: properties of the class, instance attributes, the class, and `__getattr__` if none of these has the
name or the property raised an AttributeError. -/
def getattr {α : Type} (L : Lib α) (c : Obj α) (n : String) : Except Err (Got α) × Obj α :=
  if n ∈ properties then
    match property L c n with
    | (.ok a, c1) => (.ok (.attr a), c1)
    | (.error .attributeError, c1) => dunder L c1 n
    | (.error e, c1) => (.error e, c1)
  else
    match c.inst n with
    | some v => (.ok (.inst v), c)
    | none => if n ∈ ownNames then (.ok (.own n), c) else dunder L c n

/-- `setattr(c, k, v)` (cosmology.py 198-205): refused for names of the delegates; a property has no setter. -/
def setattr {α : Type} (L : Lib α) (c : Obj α) (k : String) (v : V α) : Except Err (Obj α) :=
  if dro.any fun i => L.has i k then .error .valueError
  else if k ∈ properties then .error .attributeError
  else .ok (c.put k v)

/-- `dir(c)` (cosmology.py 188-196). -/
def dirOf {α : Type} (L : Lib α) : List String :=
  ((dro.map Iface.name ++ dro.reverse.flatMap L.names).dedup).insertionSort (· ≤ ·)

/-! ## Dictionaries held by reference -/

/-- The dictionaries of a program. -/
structure Heap where
  next : Nat
  get : Nat → Dict

/-- A new dictionary. -/
def Heap.alloc (h : Heap) (d : Dict) : Nat × Heap := (h.next, ⟨h.next + 1, fun r => if r = h.next then d else h.get r⟩)

/-- `d[k] = v` for the dictionary `r`. -/
def Heap.write (h : Heap) (r : Nat) (k : String) (v : Val) : Heap := ⟨h.next, fun x => if x = r then (h.get x).set k v else h.get x⟩

/-- `__setstate__` (cosmology.py 420-427): the engine, the table with the engine, and the dictionary itself. -/
def setState {α : Type} (L : Lib α) (h : Heap) (c : Obj α) (r : Nat) : Except Err (Obj α) := do
  L.make .engine (h.get r)
  let c ← setattr L c "engine" (.engine (h.get r))
  let c ← setattr L c "delegates" (.delegates [(.engine, h.get r)])
  setattr L c "pars" (.dict r)

/-- `from_dict` (cosmology.py 406-418): the object keeps the dictionary of the caller. -/
def fromDict {α : Type} (L : Lib α) (h : Heap) (r : Nat) : Except Err (Obj α) := setState L h bare r

/-- `self.pars` as a dictionary. -/
def parsOf {α : Type} (c : Obj α) : Except Err Nat :=
  match c.inst "pars" with
  | some (.dict r) => .ok r
  | some _ => .error .typeError
  | none => .error .attributeError

/-- `dict(c)` (cosmology.py 179-186): a new dictionary with the parameters. -/
def asDict {α : Type} (h : Heap) (c : Obj α) : Except Err (Nat × Heap) := (parsOf c).map fun r => h.alloc (h.get r)

/-- `copy.copy(c)`: `__getstate__` (cosmology.py 228-229) gives the dictionary itself. -/
def shallow {α : Type} (L : Lib α) (h : Heap) (c : Obj α) : Except Err (Obj α) := do
  let r ← parsOf c
  setState L h bare r

/-- `pickle.loads(pickle.dumps(c))`: the dictionary is written and read. -/
def pickled {α : Type} (L : Lib α) (h : Heap) (c : Obj α) : Except Err (Obj α × Heap) := do
  let r ← parsOf c
  let q := h.alloc (h.get r)
  let c1 ← setState L q.2 bare q.1
  pure (c1, q.2)

/-- `clone` (cosmology.py 429-450). -/
def clone {α : Type} (L : Lib α) (h : Heap) (c : Obj α) (kw : Dict) : Except Err (Obj α × Heap) := do
  let r ← parsOf c
  let p ← lift (Cosmo.clone (h.get r) kw)
  let q := h.alloc p
  let c1 ← fromDict L q.2 q.1
  pure (c1, q.2)

/-- `from_file` (cosmology.py 381-404); `ini` is what `load_ini` reads. -/
def fromFile {α : Type} (L : Lib α) (h : Heap) (ini kw : Dict) : Except Err (Obj α × Heap) := do
  let q := h.alloc (ini.update kw)
  let c ← fromDict L q.2 q.1
  pure (c, q.2)

/-! ## The constructor -/

/-- The parameters of `__init__` (cosmology.py 119-132) in order. -/
def params : List String := ["h", "T0_cmb", "Omega0_b", "Omega0_cdm", "N_ur", "m_ncdm", "P_k_max", "P_z_max", "gauge", "n_s", "nonlinear", "verbose"]

/-- The old default values (cosmology.py 673-674). -/
def oldDefaults : Dict := Dict.lit [("H0", .num (676/10)), ("Om0", .num (31/100)), ("Ob0", .num (486/10000)), ("Ode0", .num (69/100)), ("w0", .num (-1)),
  ("Tcmb0", .num (27255/10000)), ("Neff", .num (304/100)), ("m_nu", .num 0), ("flat", .bool false)]

/-- A number. Other values are refused (astropy reads some strings too). -/
def number : Option Val → Except Err ℚ
  | some (.num q) => .ok q
  | some (.bool b) => .ok (if b then 1 else 0)
  | _ => .error .typeError

/-- astropy: the masses of `n = floor(Neff)` species. One mass is for all; a list must have one for each. None and zeros are
massless. -/
def oldMasses (n : Nat) : Option Val → Except Err (Option (List ℚ))
  | some .none => .ok none
  | some (.num q) => if q < 0 then .error .valueError else if n = 0 ∨ q = 0 then .ok none else .ok (some (List.replicate n q))
  | some (.list l) =>
    if n = 0 then .ok none
    else if l.length ≠ n ∨ l.any (fun q => q < 0) then .error .valueError
    else if l.all (fun q => q = 0) then .ok none else .ok (some l)
  | _ => .error .typeError

/-- The cosmology of astropy for the old names (cosmology.py 692-708): the class by `w0` and `flat`. -/
def oldAstropy (d : Dict) : Except Err Cosmo.Astropy := do
  let H0 ← number (d "H0")
  let Om0 ← number (d "Om0")
  let Tcmb0 ← number (d "Tcmb0")
  let Neff ← number (d "Neff")
  let w0 ← number (d "w0")
  let flat := ((d "flat").map Cosmo.truthy).getD false
  let ode0 ← (if flat then pure none else (number (d "Ode0")).map some)
  let Ob0 ← (if d "Ob0" = some .none then .error .valueError else number (d "Ob0"))
  if Om0 < 0 ∨ Neff < 0 ∨ Ob0 < 0 ∨ Om0 < Ob0 then throw .valueError
  let m ← oldMasses ⌊Neff⌋.toNat (d "m_nu")
  pure { H0 := H0, Om0 := Om0, Ob0 := Ob0, Tcmb0 := Tcmb0, Neff := Neff, m_nu := m, ode0 := ode0, de := if w0 = -1 then .lambda else .w w0 }

/-- The curvature: none for the flat classes; astropy derives the others. -/
def curvature (ok0 : Cosmo.Astropy → ℚ) (a : Cosmo.Astropy) : ℚ := if a.ode0 = none then 0 else ok0 a

/-- `check_deprecated_init` (cosmology.py 664-709). -/
def deprecated (ok0 : Cosmo.Astropy → ℚ) (args : List Val) (kw : List (String × Val)) : Except Err (Option Dict) :=
  if kw.all fun q => q.1 ∉ Cosmo.oldNames then .ok none
  else if (kw.any fun q => q.1 ∉ Cosmo.oldNames) ∨ args ≠ [] then .error .valueError
  else do
    let a ← oldAstropy (oldDefaults.update (Dict.lit kw))
    let d ← lift (Cosmo.fromAstropy a (curvature ok0 a))
    pure (some d)

/-- The positional arguments by name. -/
def bound (args : List Val) : Dict := Dict.lit (params.zip args)

/-- The parameters of `Cosmology(*args, **kw)` (cosmology.py 118-167). -/
def compile (ok0 : Cosmo.Astropy → ℚ) (args : List Val) (kw : List (String × Val)) : Except Err Dict := do
  if params.length < args.length then throw .typeError
  if kw.any fun q => q.1 ∈ params.take args.length then throw .typeError
  let dep ← deprecated ok0 args kw
  let a := match dep with
    | some d => d
    | none => (Cosmo.defaults.update (bound args)).update (Dict.lit kw)
  lift (Cosmo.checkArgs (Dict.lit kw))
  lift (Cosmo.compileArgs a)

/-- `Cosmology(*args, **kw)` (cosmology.py 7-19, 118-170): the arguments are stored, and the parameters go into a new dictionary. -/
def new {α : Type} (L : Lib α) (ok0 : Cosmo.Astropy → ℚ) (h : Heap) (args : List Val) (kw : List (String × Val)) : Except Err (Obj α × Heap) := do
  let c ← setattr L bare "_user_args" (.args args)
  let c ← setattr L c "_user_kwargs" (.kwargs kw)
  let p ← compile ok0 args kw
  let q := h.alloc p
  let c ← setState L q.2 c q.1
  pure (c, q.2)

/-- The names that `astropy_to_dict` fills (cosmology.py 452-512). -/
def astropyNames (a : Cosmo.Astropy) : List String :=
  ["h", "T0_cmb", "Omega0_b", "Omega0_cdm", "N_ur", "m_ncdm", "Omega0_k"] ++ if a.de = .lambda then [] else ["w0_fld", "wa_fld", "Omega0_Lambda"]

/-- The keyword arguments of `from_astropy` (cosmology.py 351-378): those of the astropy cosmology `a`, updated by `kw`. -/
def merged (a : Cosmo.Astropy) (d : Dict) (kw : List (String × Val)) : List (String × Val) :=
  (astropyNames a).filterMap (fun k => (d.update (Dict.lit kw) k).map fun v => (k, v)) ++ kw.filter fun q => q.1 ∉ astropyNames a

/-- `from_astropy(cosmo, **kw)` (cosmology.py 351-378). -/
def fromAstropy {α : Type} (L : Lib α) (ok0 : Cosmo.Astropy → ℚ) (h : Heap) (a : Cosmo.Astropy) (kw : List (String × Val)) : Except Err (Obj α × Heap) := do
  let d ← lift (Cosmo.fromAstropy a (curvature ok0 a))
  new L ok0 h [] (merged a d kw)

end NBK.CosmoObj
