import Verif.Binned.Model
import Verif.FftObj.Model
import Verif.Convpower.Model
import Verif.Fkp.Model

/-!
# Model of the object `ConvolvedFFTPower` (nbodykit/algorithms/convpower/fkp.py)

From the arguments to the saved results: checks, casting of the sources, the joint box, the bins, the attributes, the table of the multipoles,
`save` and `load`. The mesh objects live in a heap, as the constructor changes those of the caller. The multipoles are those of
`Verif.Convpower`, the norms those of `Verif.Fkp`, both as functions of the meshes here, and the bins those of `FFTPower`, which has the same
lines (`Verif.FftObj`). Numbers are rational. A complex column `c` is kept as two columns `c.real` and `c.imag`.
-/
namespace NBK.ConvObj
open NBK

inductive Err where
  | valueError | typeError | notImplemented | assertionError | unboundLocal | indexError | keyError | attributeError | other
  deriving DecidableEq, Repr

def Err.ofBinned : Binned.Err → Err
  | .valueError => .valueError
  | .indexError => .indexError
  | .typeError => .typeError
  | _ => .other

def lift {α : Type} : Except Binned.Err α → Except Err α
  | .ok a => .ok a
  | .error e => .error (.ofBinned e)

/-- A `FKPCatalogMesh`. `pmBox` is the box of the particle mesh `pm`, made once, `boxSize` that in `attrs`. `actions` are the operations that
are applied to the painted field. -/
structure Mesh where
  source : Nat
  comm : Nat
  selection : String := "Selection"
  compWeight : String := "Weight"
  fkpWeight : String := "FKPWeight"
  nbar : String := "NZ"
  nmesh : List Nat
  pmBox : List ℚ
  boxSize : List ℚ
  boxCenter : List ℚ
  boxPad : List ℚ
  resampler : String := "cic"
  interlaced : Bool := false
  compensated : Bool := false
  actions : List String := []
  deriving DecidableEq

/-- The mesh objects; a reference is a position. -/
abbrev Heap := List Mesh

/-- A `FKPCatalog`: the columns that both species have, the attribute `Nmesh`, the name of the column of the number density, and the box of its
objects, which `_define_bbox` finds or fails to (`Verif.Fkp`). -/
structure Cat where
  id : Nat
  comm : Nat
  columns : List String
  nmesh : Option (List Nat)
  nbar : String
  boxPad : List ℚ
  bbox : Except Err (List ℚ × List ℚ)

/-- `FKPCatalog.to_mesh(Nmesh=Nmesh, dtype='c16', compensated=False)` (catalog.py 151-259): the columns of the weights must be there, then
`Nmesh` is the keyword or the attribute, then the box. -/
def toMesh (c : Cat) (nmesh : Option (FftObj.Dim Nat)) : Except Err Mesh :=
  if ¬ ("FKPWeight" ∈ c.columns ∧ "Weight" ∈ c.columns) then .error .valueError
  else
    match (nmesh.map FftObj.Dim.three).or c.nmesh with
    | none => .error .valueError
    | some n => c.bbox.bind fun b =>
      .ok { source := c.id, comm := c.comm, nbar := c.nbar, nmesh := n, pmBox := b.1, boxSize := b.1, boxCenter := b.2, boxPad := c.boxPad }

/-- What the caller passes as a source. -/
inductive Src where
  | mesh (ref : Nat)
  | catalog (c : Cat)
  | other

/-- `_cast_mesh` (fkp.py 761-781). -/
def castMesh (h : Heap) (nmesh : Option (FftObj.Dim Nat)) (s : Src) : Except Err (Heap × Nat) :=
  match s with
  | .other => .error .typeError
  | .catalog c => (toMesh c nmesh).bind fun m => if FftObj.mismatch m.nmesh nmesh then .error .valueError else .ok (h ++ [m], h.length)
  | .mesh r =>
    match h[r]? with
    | none => .error .other
    | some m => if FftObj.mismatch m.nmesh nmesh then .error .valueError else .ok (h, r)

/-- The second source (fkp.py 147-150). -/
def castSecond (h : Heap) (nmesh : Option (FftObj.Dim Nat)) (first : Nat) : Option Src → Except Err (Heap × Nat)
  | none => .ok (h, first)
  | some s => castMesh h nmesh s

/-- `is_valid_crosscorr` (fkp.py 799-808). -/
def validCross (m1 m2 : Mesh) : Bool :=
  Fkp.isValidCrosscorr ⟨m1.source, m1.selection, m1.compWeight, m1.nbar⟩ ⟨m2.source, m2.selection, m2.compWeight, m2.nbar⟩

/-- The joint box (fkp.py 172-180): along each axis the longer side with its center, the first for equal ones. -/
def jointBox (m1 m2 : Mesh) : List ℚ × List ℚ :=
  let j := List.zipWith (fun (p q : ℚ × ℚ) => Fkp.jointAxis p.1 p.2 q.1 q.2) (m1.boxSize.zip m1.boxCenter) (m2.boxSize.zip m2.boxCenter)
  (j.map Prod.fst, j.map Prod.snd)

/-- `recenter_box` (catalogmesh.py 105-119): only `attrs` changes. -/
def recenter (b : List ℚ × List ℚ) (m : Mesh) : Mesh := { m with boxSize := b.1, boxCenter := b.2 }

/-- The change of one object. -/
def update (h : Heap) (r : Nat) (f : Mesh → Mesh) : Heap := h.modify r f

/-- The boxes are joined if the sizes differ (fkp.py 170-184). -/
def join (h : Heap) (r1 r2 : Nat) (m1 m2 : Mesh) : Heap :=
  if m1.boxSize = m2.boxSize then h else update (update h r1 (recenter (jointBox m1 m2))) r2 (recenter (jointBox m1 m2))

/-- `source.actions[:] = []; source.compensated = False` (fkp.py 427-429). -/
def clearMesh (m : Mesh) : Mesh := { m with actions := [], compensated := false }

def clear (h : Heap) (r1 r2 : Nat) : Heap := update (update h r1 clearMesh) r2 clearMesh

/-- `get_compensation` (fkp.py 783-790, mesh/catalog.py 416-451): by the window and interlacing, `None` for a window without one. -/
def compensation (m : Mesh) : Option String :=
  if m.interlaced then
    if m.resampler = "cic" then some "CompensateCIC" else if m.resampler = "tsc" then some "CompensateTSC"
    else if m.resampler = "pcs" then some "CompensatePCS" else none
  else
    if m.resampler = "cic" then some "CompensateCICShotnoise" else if m.resampler = "tsc" then some "CompensateTSCShotnoise"
    else if m.resampler = "pcs" then some "CompensatePCSShotnoise" else none

/-- The metadata of a painted field: `alpha` (`none` for one that is not finite), the rest, and whether `alpha` is NaN. -/
structure Meta where
  alpha : Option ℚ
  entries : List (String × ℚ)
  nan : Bool

/-- The columns of a table over `k`. -/
abbrev Col := List (Option ℚ)

/-- The world outside the model: pi and the square root; the wavenumbers of the modes of a box; the metadata of a painted mesh; the norms of
data and randoms, the shot noise; and the fields and transforms that `_compute_multipoles` uses, for the edges of the bins, the two meshes, their
compensations and the norm. -/
structure Env (n : Nat) (K : Type) where
  pi : ℚ
  root : ℚ → ℚ
  modes : List ℚ → List Nat → List (List (List Project.Mode))
  painted : Mesh → List Nat → Meta
  dataNorm : Mesh → Mesh → Option ℚ → Option ℚ
  randomsNorm : Mesh → Mesh → Option ℚ → Option ℚ
  shot : Mesh → Mesh → Option ℚ → Option ℚ → Option ℚ
  conv : List ℚ → Mesh → Mesh → List Nat → Option String → Option String → ℚ → Convpower.Env n K Col Col (List (Option ℚ × Option ℚ))
  memory : Convpower.Heap n K

/-- A scalar or a list of multipoles. -/
inductive Poles where
  | one (l : Nat)
  | many (l : List Nat)
  deriving DecidableEq, Repr

/-- `poles = [poles]` for a scalar (fkp.py 187-188). -/
def Poles.list : Poles → List Nat
  | .one l => [l]
  | .many l => l

/-- The arguments. `deprecated`: one of the keywords `use_fkp_weights`, `P0_FKP` is given. -/
structure Args where
  first : Src
  poles : Poles
  second : Option Src := none
  nmesh : Option (FftObj.Dim Nat) := none
  kmin : ℚ := 0
  kmax : Option ℚ := none
  dk : Option ℚ := none
  deprecated : Bool := false

/-- `attrs` before the run (fkp.py 190-205). -/
structure Attrs where
  poles : List Nat
  dk : Option ℚ
  kmin : ℚ
  kmax : Option ℚ
  nmesh : List Nat
  boxSize : List ℚ
  boxPad : List ℚ
  boxCenter : List ℚ
  resampler : String
  interlaced : Bool
  deriving DecidableEq

/-- `attrs` after it: with `alpha`, the norms, the shot noise (where `none` is not a finite number) and the metadata of the painting. -/
structure Full where
  args : Attrs
  alpha : Option ℚ
  dataNorm : Option ℚ
  randomsNorm : Option ℚ
  shotnoise : Option ℚ
  entries : List (String × ℚ)
  deriving DecidableEq

/-- `copy_meta` (fkp.py 792-797). -/
def copyMeta (m : List (String × ℚ)) (pre : String) : List (String × ℚ) :=
  (m.filter fun p => "data.".toList.isPrefixOf p.1.toList || "randoms.".toList.isPrefixOf p.1.toList).map fun p =>
    (if pre = "" then p.1 else pre ++ "." ++ p.1, p.2)

/-- `numpy.allclose(alpha1, alpha2, rtol=1e-3)` (fkp.py 516). -/
def sameAlpha : Option ℚ → Option ℚ → Bool
  | some a, some b => Fkp.allclose a b (1 / 1000)
  | none, none => true
  | _, _ => false

/-- The table (fkp.py 450-453, 622-643): the multipoles in ascending order. -/
def table (r : Convpower.Result Col Col (List (Option ℚ × Option ℚ))) : List Binned.Col :=
  [⟨"k", false, (r.k.getD []).map FftObj.val⟩]
    ++ r.power.flatMap (fun p => FftObj.statCols .power ("power_" ++ toString p.1) (p.2.getD []))
    ++ [⟨"modes", true, (r.modes.getD []).map FftObj.val⟩]

/-- `_compute_multipoles` (fkp.py 408-655) after the bins are made: `m1`, `m2` are the cleared meshes. The duplicate column names and the negative
length of an empty list of edges come first, the check of `alpha` (NaN is not close to itself) and of the norms next. Edges whose squares do not increase are a ValueError
of `numpy.digitize`. -/
def compute {n : Nat} {K : Type} [CommRing K] (e : Env n K) (auto : Bool) (m1 m2 : Mesh) (a : Attrs) (ed : List ℚ) : Except Err (Full × List Binned.Col) :=
  let meta1 := e.painted m1 a.nmesh
  let meta2 := e.painted m2 a.nmesh
  let dn := e.dataNorm m1 m2 meta1.alpha
  let rn := e.randomsNorm m1 m2 meta1.alpha
  if ¬ a.poles.Nodup ∨ ed = [] then .error .valueError
  else if meta1.nan || meta2.nan then .error .valueError
  else if ¬ (auto || sameAlpha meta1.alpha meta2.alpha) then .error .valueError
  else
    match Fkp.normFactor dn rn with
    | .error _ => .error .valueError
    | .ok norm =>
      if a.poles ≠ [] ∧ ¬ (ed.map (· ^ 2)).Pairwise (· ≤ ·) then .error .valueError
      else
        match Convpower.multipoles (e.conv ed m1 m2 a.nmesh (compensation m1) (compensation m2) norm) auto a.poles e.memory with
        | .error .valueError => .error .valueError
        | .error .unboundLocal => .error .unboundLocal
        | .ok r => .ok (⟨a, meta1.alpha, dn, rn, e.shot m1 m2 meta1.alpha rn,
            if auto then copyMeta meta1.entries "" else copyMeta meta1.entries "first" ++ copyMeta meta2.entries "second"⟩, table r)

/-- The bins (fkp.py 253-270), from the box of `pm`. -/
def kBins {n : Nat} {K : Type} (e : Env n K) (m1 : Mesh) (a : Attrs) : Except Err (List ℚ × Option (List ℚ)) :=
  let env : FftObj.Env := ⟨e.pi, e.root, fun _ _ _ _ => [], fun _ => none, fun _ => none⟩
  match FftObj.xBins env .power ⟨m1.nmesh, m1.pmBox, 0, "", [], [], a.dk.getD (FftObj.dxDefault env .power m1.pmBox m1.nmesh), a.kmin, a.kmax,
      1, none, none, none⟩ (e.modes m1.pmBox m1.nmesh) with
  | .ok b => .ok b
  | .error _ => .error .indexError

/-- The object; attributes that a loaded one may lack are `none`. -/
structure Obj where
  attrs : Full
  poles : Binned.BS (Option Full)
  edges : Option (List ℚ)

/-- `__init__` after the checks, and `run` (fkp.py 168-280): the heap afterwards and the object. -/
def build {n : Nat} {K : Type} [CommRing K] (e : Env n K) (g : Args) (h : Heap) (r1 r2 : Nat) (m1 m2 : Mesh) : Heap × Except Err Obj :=
  let h := join h r1 r2 m1 m2
  match h[r1]?, h[r2]? with
  | some m1, some m2 =>
    let a : Attrs := ⟨g.poles.list, g.dk, g.kmin, g.kmax, m1.nmesh, m1.boxSize, m1.boxPad, m1.boxCenter, m1.resampler, m1.interlaced⟩
    match kBins e m1 a with
    | .error x => (h, .error x)
    | .ok bins => (clear h r1 r2, (compute e (r1 = r2) (clearMesh m1) (clearMesh m2) a bins.1).bind fun t =>
        (lift (Binned.init ["k"] [bins.1] [bins.1.length - 1] t.2 ["modes"] (some [bins.2]) (some t.1))).bind fun p =>
        .ok ⟨t.1, p, some bins.1⟩)
  | _, _ => (h, .error .other)

/-- `__init__` (fkp.py 134-208). -/
def new {n : Nat} {K : Type} [CommRing K] (e : Env n K) (h : Heap) (g : Args) : Heap × Except Err Obj :=
  if g.deprecated then (h, .error .valueError)
  else
    match castMesh h g.nmesh g.first with
    | .error x => (h, .error x)
    | .ok (h1, r1) =>
      match castSecond h1 g.nmesh r1 g.second with
      | .error x => (h1, .error x)
      | .ok (h2, r2) =>
        match h2[r1]?, h2[r2]? with
        | some m1, some m2 =>
          if ¬ validCross m1 m2 then (h2, .error .notImplemented)
          else if m2.comm ≠ m1.comm then (h2, .error .assertionError)
          else build e g h2 r1 r2 m1 m2
        | _, _ => (h2, .error .other)

/-- What is in a file: of `save` (fkp.py 340-343, 355-374), or of a version before 0.3.5. -/
inductive File where
  | current (poles : Binned.State (Option Full)) (attrs : Full)
  | old (edges : List ℚ) (shape : List Nat) (poles : List Binned.Col) (attrs : Full)

/-- `save`. -/
def save (o : Obj) : File := .current (Binned.getstate o.poles) o.attrs

/-- What `load` returns: for a format that it does not know no attribute but the communicator is set. -/
structure Loaded where
  attrs : Option Full
  poles : Option (Binned.BS (Option Full))
  edges : Option (List ℚ)

/-- `__setstate__` and `__setstate_pre000305__` (fkp.py 345-353). -/
def setstate : File → Except Err Loaded
  | .current p a => (lift (Binned.fromState p)).bind fun b => .ok ⟨some a, some b, none⟩
  | .old _ _ _ _ => .error .valueError

def setstateOld : File → Except Err Loaded
  | .current _ _ => .error .keyError
  | .old ed s p a => (lift (Binned.init ["k"] [ed] s p ["modes"] none none)).bind fun b => .ok ⟨some a, some b, none⟩

/-- `load` (fkp.py 376-406). -/
def load (f : File) (format : String) : Except Err Loaded :=
  if format = "current" then setstate f
  else if format = "pre000305" then setstateOld f
  else .ok ⟨none, none, none⟩

end NBK.ConvObj
