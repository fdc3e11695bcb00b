import Verif.Fof.Mass
import Verif.Gather.Model
import Mathlib.Data.Fin.VecNotation

/-!
# Model of the object `FOF` (nbodykit/algorithms/fof.py 10-195, 339-533)

From the catalog and the arguments to the halo catalog. The labels of the particles are those of `Verif.Fof`; the decomposition of the domain and the
labels that `kdcount` finds on a rank are given by the environment. Numbers are rational and are not rounded to `f4`. Positions have three components.
A division `0/0` is `none`.
-/
namespace NBK.FofObj
open NBK

inductive Err where
  | valueError | keyError | typeError | assertionError | nameError | other
  deriving DecidableEq, Repr

def Err.ofFof : Fof.Err → Err
  | .valueError => .valueError
  | _ => .other

def lift {α : Type} : Except Fof.Err α → Except Err α
  | .ok a => .ok a
  | .error e => .error (.ofFof e)

/-- The values in `attrs`. -/
inductive Val where
  | num (q : ℚ)
  | vec (l : List ℚ)
  | flag (b : Bool)
  | text (s : String)
  deriving DecidableEq, Repr

abbrev Dict := List (String × Val)

/-- `d[key] = v`. -/
def Dict.set (d : Dict) (k : String) (v : Val) : Dict :=
  if d.any (fun p => p.1 = k) then d.map (fun p => if p.1 = k then (k, v) else p) else d ++ [(k, v)]

/-- `d.update(d')`. -/
def Dict.update (d d' : Dict) : Dict := d'.foldl (fun d p => d.set p.1 p.2) d

/-- `d[key]`, `d.get(key)`. -/
def Dict.get (d : Dict) (k : String) : Option Val := (d.find? fun p => p.1 = k).map Prod.snd

abbrev Vec := Fin 3 → ℚ

/-- A particle: the columns that are used. `peak` is the value of the column that defines the peak. -/
structure Part where
  pos : Vec
  vel : Vec
  init : Vec
  peak : ℚ

/-- A catalog: its particles on all ranks, the names of its columns, `attrs`. -/
structure Source where
  ranks : List (List Part)
  columns : List String
  attrs : Dict

/-- All the particles. -/
def Source.all (s : Source) : List Part := s.ranks.flatten

/-- The arguments of `FOF`. -/
structure Args where
  linkingLength : ℚ
  nmin : Nat
  absolute : Bool := false
  periodic : Bool := true
  domainFactor : ℚ := 1

/-- The world: the roots, the sorting routines, and for a linking length and a box (`none` without periodicity) what each rank receives and the labels
that `kdcount` gives it. -/
structure Env where
  root : ℚ → Nat → ℚ
  argsort : List Nat → List Nat
  sort : (Fof.Rec → Nat) → List Fof.Rec → List Fof.Rec
  held : Source → ℚ → Option Vec → ℚ → List (List Nat)
  kd : Source → ℚ → Option Vec → ℚ → List (List Nat)

/-- The number of dimensions (fof.py 64-69). `len` of a number is a TypeError. -/
def ndim (s : Source) : Except Err Nat :=
  match s.attrs.get "Nmesh" with
  | none => .ok 3
  | some (.vec l) => .ok l.length
  | some (.text t) => .ok t.length
  | some _ => .error .typeError

/-- `numpy.prod(source.attrs['BoxSize'])`: of a number it is the number. -/
def boxProd (s : Source) : Except Err ℚ :=
  match s.attrs.get "BoxSize" with
  | none => .error .keyError
  | some (.num q) => .ok q
  | some (.vec l) => .ok l.prod
  | some _ => .error .typeError

/-- The linking length in the units of the positions (fof.py 62-74). Without particles it is infinite, which is an error here. -/
def linking (e : Env) (s : Source) (g : Args) : Except Err ℚ :=
  if g.absolute then .ok g.linkingLength
  else (ndim s).bind fun d => (boxProd s).bind fun V =>
    if s.all.length = 0 then .error .other else .ok (g.linkingLength * e.root (V / s.all.length) d)

/-- The box of `fof` (fof.py 371-383): a number is the side of a cube. -/
def fofBox (s : Source) (g : Args) : Except Err (Option Vec) :=
  if g.periodic then
    match s.attrs.get "BoxSize" with
    | none => .error .valueError
    | some (.num q) => .ok (some fun _ => q)
    | some (.vec [x, y, z]) => .ok (some ![x, y, z])
    | some _ => .error .other
  else .ok none

/-- The object. -/
structure Obj where
  source : Source
  periodic : Bool
  attrs : Dict
  labels : List (List Nat)
  maxLabel : List Nat

/-- `self.attrs` (fof.py 52-57). -/
def attrsOf (g : Args) : Dict :=
  [("linking_length", .num g.linkingLength), ("nmin", .num g.nmin), ("absolute", .flag g.absolute), ("periodic", .flag g.periodic),
   ("domain_factor", .num g.domainFactor)]

/-- `run` (fof.py 79-105): `none` while the merging has not ended. `max_label` is what `allgather` returns. -/
def run (e : Env) (fuel : Nat) (s : Source) (g : Args) (ll : ℚ) : Option (Except Err Obj) :=
  match fofBox s g with
  | .error x => some (.error x)
  | .ok box =>
    (Fof.fof e.argsort (e.held s ll box g.domainFactor) (s.ranks.map List.length) (e.kd s ll box g.domainFactor) fuel).map fun r =>
      (lift r).bind fun minid => (lift (Fof.assignLabels e.sort e.argsort g.nmin minid)).bind fun labels =>
      (lift (labels.mapM Fof.localMax)).bind fun m => .ok ⟨s, g.periodic, attrsOf g, labels, m⟩

/-- `__init__` (fof.py 44-77). -/
def new (e : Env) (fuel : Nat) (s : Source) (g : Args) : Option (Except Err Obj) :=
  if "Position" ∉ s.columns then some (.error .valueError)
  else if g.periodic ∧ s.attrs.get "BoxSize" = none then some (.error .valueError)
  else
    match linking e s g with
    | .error x => some (.error x)
    | .ok ll => run e fuel s g ll

/-- A row of the catalog of groups (fof.py 512-528). -/
structure Row where
  cmPos : Fin 3 → Option ℚ
  cmVel : Fin 3 → Option ℚ
  length : Nat
  init : Option (Fin 3 → Option ℚ)
  peakPos : Option (Fin 3 → Option ℚ)
  peakVel : Option (Fin 3 → Option ℚ)

/-- The labels with a value of each particle. -/
def paired {β : Type} (labels : List (List Nat)) (ranks : List (List Part)) (f : Part → β) : List (List (Nat × β)) :=
  (labels.zip ranks).map fun r => r.1.zip (r.2.map f)

/-- `centerofmass` (fof.py 647-700) along the three axes. `boxsize[i]` of a number is a TypeError. -/
def center (argsort : List Nat → List Nat) (labels : List (List Nat)) (ranks : List (List Part)) (f : Part → Vec) (box : Option Val) :
    Except Err (Fin 3 → List (Option ℚ)) :=
  let axis := fun (b : Option ℚ) (i : Fin 3) => lift (Fof.centerOfMass argsort b (paired labels ranks fun p => f p i))
  let three := fun (b : Fin 3 → Option ℚ) => (axis (b 0) 0).bind fun x => (axis (b 1) 1).bind fun y => (axis (b 2) 2).bind fun z => .ok ![x, y, z]
  match box with
  | none => three fun _ => none
  | some (.vec [x, y, z]) => three ![some x, some y, some z]
  | some (.vec _) => .error .other
  | some _ => (lift (Fof.count labels)).bind fun _ => .error .typeError

/-- The entry of a group. -/
def at' (c : Fin 3 → List (Option ℚ)) (v : Nat) : Fin 3 → Option ℚ := fun i => (c i).getD v none

/-- Position and velocity of the peaks (fof.py 496-510). -/
def peaks (argsort : List Nat → List Nat) (s : Source) (labels : List (List Nat)) (peakcolumn : Option String) (box : Option Val) :
    Except Err (Option ((Fin 3 → List (Option ℚ)) × (Fin 3 → List (Option ℚ)))) :=
  match peakcolumn with
  | none => .ok none
  | some c =>
    if c ∉ s.columns then .error .assertionError
    else (lift (Fof.peakLabels argsort (paired labels s.ranks Part.peak))).bind fun label1 =>
      (center argsort label1 s.ranks Part.pos box).bind fun ppos =>
      (center argsort label1 s.ranks Part.vel none).map fun pvel => some (ppos, pvel)

/-- `fof_catalog` (fof.py 428-533), before the scattering. -/
def catalog (argsort : List Nat → List Nat) (s : Source) (labels : List (List Nat)) (peakcolumn : Option String) (periodic : Bool) : Except Err (List Row) :=
  if "Position" ∉ s.columns ∨ "Velocity" ∉ s.columns then .error .valueError
  else (lift (Fof.count labels)).bind fun N =>
    if periodic ∧ s.attrs.get "BoxSize" = none then .error .valueError
    else
      let box := if periodic then s.attrs.get "BoxSize" else none
      (center argsort labels s.ranks Part.pos box).bind fun hpos =>
      (center argsort labels s.ranks Part.vel none).bind fun hvel =>
      (if "InitialPosition" ∈ s.columns then (center argsort labels s.ranks Part.init box).map some else .ok none).bind fun hinit =>
      (peaks argsort s labels peakcolumn box).bind fun pk =>
      .ok ((List.range N.length).map fun v =>
        ⟨at' hpos v, at' hvel v, if v = 0 then 0 else N.getD v 0, hinit.map (at' · v), pk.map fun p => at' p.1 v, pk.map fun p => at' p.2 v⟩)

/-- `ScatterArray(catalog, comm, root=0)` (fof.py 533, utils.py 249-348): pieces of the lengths `newlength`, in order. -/
def scatter {β : Type} (P : Nat) (l : List β) : List (List β) := Fof.cut ((List.range P).map (Gather.newlength l.length P)) l

/-- `find_features` (fof.py 107-132): the rows on each rank and `attrs`. -/
def findFeatures (e : Env) (o : Obj) (peakcolumn : Option String) : Except Err (List (List Row) × Dict) :=
  (catalog e.argsort o.source o.labels peakcolumn o.periodic).map fun rows => (scatter o.source.ranks.length rows, o.source.attrs.update o.attrs)

/-- A halo: the columns of the `HaloCatalog` that come from the groups. -/
structure Halo where
  pos : Fin 3 → Option ℚ
  vel : Fin 3 → Option ℚ
  mass : ℚ

/-- Position and velocity of a halo (fof.py 185-190). -/
def Row.halo (r : Row) (posdef : String) (mass : ℚ) : Option Halo :=
  if posdef = "cm" then some ⟨r.cmPos, r.cmVel, mass * r.length⟩
  else
    match r.peakPos, r.peakVel with
    | some p, some v => some ⟨p, v, mass * r.length⟩
    | _, _ => none

/-- `to_halos` (fof.py 134-195), with the attributes that `HaloCatalog` adds (halos.py 56-70) without `cosmo`. -/
def toHalos (e : Env) (o : Obj) (mass redshift : ℚ) (mdef : String) (posdef : String) (peakcolumn : String) : Except Err (List (List Halo) × Dict) :=
  if posdef ≠ "cm" ∧ posdef ≠ "peak" then .error .assertionError
  else
    (catalog e.argsort o.source o.labels (if posdef = "cm" then none else some peakcolumn) o.periodic).map fun rows =>
      ((scatter o.source.ranks.length rows).map fun r => (r.filter fun x => 0 < x.length).filterMap fun x => x.halo posdef mass,
       (((o.source.attrs.update o.attrs).set "particle_mass" (.num mass)).update
         [("redshift", .num redshift), ("mass", .text "Mass"), ("velocity", .text "Velocity"), ("position", .text "Position"), ("mdef", .text mdef),
          ("halo_mass_key", .text ("halo_m" ++ mdef)), ("halo_radius_key", .text ("halo_r" ++ mdef))]))

/-- `fof_find_peaks` (fof.py 415-425): after the count it returns a name that is not defined. -/
def findPeaks (labels : List (List Nat)) : Except Err (List Row) :=
  (lift (Fof.count labels)).bind fun _ => .error .nameError

end NBK.FofObj
