import Verif.Binned.Model
import Verif.Project.Model
import Verif.Uedges.Model
import Verif.Corr.Model

/-!
# Model of the objects `FFTPower` (nbodykit/algorithms/fftpower.py) and `FFTCorr` (nbodykit/algorithms/fftcorr.py)

From the arguments to the results: checks, casting of the sources, bins, the structured arrays and the `BinnedStatistic` objects, `save` and
`load`. The three dimensional statistic is that of `Verif.Corr`, given here as the modes with their values, and the projection that of
`Verif.Project`. Numbers are rational, pi and the square root are parameters. A complex column `c` is kept as two columns `c.real` and `c.imag`.
-/
namespace NBK.FftObj
open NBK

inductive Err where
  | valueError | typeError | indexError | assertionError | attributeError | other
  deriving DecidableEq, Repr

def Err.ofBinned : Binned.Err → Err
  | .valueError => .valueError
  | .indexError => .indexError
  | .typeError => .typeError
  | _ => .other

def lift {α : Type} : Except Binned.Err α → Except Err α
  | .ok a => .ok a
  | .error e => .error (.ofBinned e)

/-- `FFTPower` or `FFTCorr`. -/
inductive Kind where
  | power | corr
  deriving DecidableEq, Repr

/-- A keyword that is a number or a 3-vector. -/
inductive Dim (α : Type) where
  | scalar (a : α)
  | vec (a b c : α)
  deriving DecidableEq, Repr

/-- Broadcasting against an array of length 3. -/
def Dim.three {α : Type} : Dim α → List α
  | .scalar a => [a, a, a]
  | .vec a b c => [a, b, c]

/-- Which mesh object: one that the caller made, or the one made for an argument (0 for `first`, 1 for `second`). -/
inductive Ident where
  | given (id : Nat)
  | fresh (arg : Nat)
  deriving DecidableEq, Repr

/-- A `MeshSource` with its communicator and its attributes `BoxSize` and `Nmesh`; `src` says which field or particles it has. -/
structure Mesh where
  ident : Ident
  src : Nat
  comm : Nat
  box : List ℚ
  nmesh : List Nat
  deriving DecidableEq

/-- What the user passes as a source. The attributes of a catalog may be missing. -/
inductive Src where
  | field (src comm : Nat) (box : List ℚ) (nmesh : List Nat)
  | catalog (src comm : Nat) (box : Option (List ℚ)) (nmesh : Option (List Nat))
  | mesh (m : Mesh)
  | other
  deriving DecidableEq

/-- The wrapping part of `_cast_source` (fftpower.py 711-722); `to_mesh` (base/catalog.py 840-862) takes the keywords first, else the
attributes of the catalog, and raises a ValueError if it finds neither. -/
def wrapSrc (arg : Nat) (box : Option (Dim ℚ)) (nmesh : Option (Dim Nat)) : Src → Except Err Mesh
  | .field s c b n => .ok ⟨.fresh arg, s, c, b, n⟩
  | .catalog s c b n =>
    match (box.map Dim.three).or b, (nmesh.map Dim.three).or n with
    | some b, some n => .ok ⟨.fresh arg, s, c, b, n⟩
    | _, _ => .error .valueError
  | .mesh m => .ok m
  | .other => .error .typeError

/-- `any(source.attrs[...] != value)` (fftpower.py 723-728). -/
def mismatch {α : Type} [DecidableEq α] (a : List α) (given : Option (Dim α)) : Bool :=
  match given with
  | none => false
  | some d => (a.zip d.three).any fun p => p.1 ≠ p.2

/-- `_cast_source` (fftpower.py 703-730). -/
def castSource (arg : Nat) (box : Option (Dim ℚ)) (nmesh : Option (Dim Nat)) (s : Src) : Except Err Mesh :=
  (wrapSrc arg box nmesh s).bind fun m =>
    if mismatch m.box box then .error .valueError
    else if mismatch m.nmesh nmesh then .error .valueError
    else .ok m

/-- The second source, the first if there is none (fftpower.py 31-34). -/
def castSecond (box : Option (Dim ℚ)) (nmesh : Option (Dim Nat)) (m1 : Mesh) : Option Src → Except Err Mesh
  | none => .ok m1
  | some s => castSource 1 box nmesh s

/-- The two sources of `FFTBase.__init__` (fftpower.py 27-46). -/
def castBoth (box : Option (Dim ℚ)) (nmesh : Option (Dim Nat)) (first : Src) (second : Option Src) : Except Err (Mesh × Mesh) :=
  (castSource 0 box nmesh first).bind fun m1 =>
    (castSecond box nmesh m1 second).bind fun m2 =>
    if m1.comm ≠ m2.comm then .error .assertionError
    else if m1.box ≠ m2.box then .error .valueError
    else .ok (m1, m2)

/-- `first is second`. -/
def isSame (m1 m2 : Mesh) : Bool := decide (m1.ident = m2.ident)

/-- The arguments. `mode` is any string, `los` is `none` for a scalar, `poles=None` is `none`; `dx`, `xmin`, `xmax` are `dk`, `kmin`, `kmax`
or `dr`, `rmin`, `rmax`. -/
structure Args where
  mode : String
  box : Option (Dim ℚ) := none
  nmesh : Option (Dim Nat) := none
  los : Option (List ℚ) := some [0, 0, 1]
  Nmu : Nat := 5
  dx : Option ℚ := none
  xmin : ℚ := 0
  xmax : Option ℚ := none
  poles : Option (List Int) := some []

/-- `attrs` of the object (fftpower.py 48-54, 212-225) and, after the run, of the results (131-137). -/
structure Attrs where
  nmesh : List Nat
  box : List ℚ
  volume : ℚ
  mode : String
  los : List ℚ
  poles : List Int
  dx : ℚ
  xmin : ℚ
  xmax : Option ℚ
  Nmu : Nat
  N1 : Option Nat
  N2 : Option Nat
  shotnoise : Option ℚ
  deriving DecidableEq

/-- The world outside the model: pi, the square root, the three dimensional statistic of two meshes (rank by rank, slab by slab) on the mesh
`Nmesh` of the first, and the attributes `N` and `shotnoise` of the painted fields. -/
structure Env where
  pi : ℚ
  root : ℚ → ℚ
  stat3d : Kind → List Nat → Nat → Nat → List (List (List Project.Mode))
  count : Nat → Option Nat
  shot : Nat → Option ℚ

def minOf (l : List ℚ) : ℚ := l.tail.foldl min (l.headD 0)
def maxOf (l : List ℚ) : ℚ := l.tail.foldl max (l.headD 0)

/-- `numpy.arange(a, b, d)` for `d > 0`. -/
def arange (a b d : ℚ) : List ℚ := (List.range ⌈(b - a) / d⌉.toNat).map fun i : Nat => a + i * d

/-- The default of `dk` (fftpower.py 218-219) and `dr` (fftcorr.py 86-87). -/
def dxDefault (e : Env) (k : Kind) (box : List ℚ) (nmesh : List Nat) : ℚ :=
  match k with
  | .power => 2 * e.pi / minOf box
  | .corr => minOf box / maxOf (nmesh.map fun n : Nat => (n : ℚ))

/-- The default of `kmax` (fftpower.py 281-282) and `rmax` (fftcorr.py 163-164). -/
def xmaxDefault (e : Env) (k : Kind) (box : List ℚ) (nmesh : List Nat) (dx : ℚ) : ℚ :=
  match k with
  | .power => e.pi * minOf (nmesh.map fun n : Nat => (n : ℚ)) / maxOf box + dx / 2
  | .corr => 1 / 2 * minOf box + dx / 2

/-- The fundamental spacing passed to `_find_unique_edges` (fftpower.py 732-769, fftcorr.py 169), its smallest component. -/
def fundamental (e : Env) (k : Kind) (box : List ℚ) (nmesh : List Nat) : ℚ :=
  match k with
  | .power => minOf (box.map fun L => 2 * e.pi / L)
  | .corr => minOf (List.zipWith (fun L (n : Nat) => L / n) box nmesh)

/-- The edges and the coordinates of the first dimension (fftpower.py 276-288, fftcorr.py 158-169). -/
def xBins (e : Env) (k : Kind) (a : Attrs) (modes : List (List (List Project.Mode))) : Except Err (List ℚ × Option (List ℚ)) :=
  let xmax := a.xmax.getD (xmaxDefault e k a.box a.nmesh a.dx)
  if 0 < a.dx then .ok (arange a.xmin xmax a.dx, none)
  else
    match Uedges.findUniqueEdges e.root (fundamental e k a.box a.nmesh) xmax
        (modes.map fun slabs => slabs.flatten.map fun m => m.x2) with
    | .ok (ed, cs) => .ok (ed, some cs)
    | .error _ => .error .indexError

/-- `muedges` (fftpower.py 291, fftcorr.py 173): `numpy.linspace` from -1 for the power and from 0 for the correlation. -/
def muEdges (k : Kind) (Nmu : Nat) : List ℚ :=
  match k with
  | .power => (List.range (Nmu + 1)).map fun i : Nat => -1 + (i : ℚ) * 2 / Nmu
  | .corr => Corr.muEdges Nmu

/-- A complex field stores half of the modes. -/
def Kind.hermitian : Kind → Bool
  | .power => true
  | .corr => false

def Kind.dim : Kind → String
  | .power => "k"
  | .corr => "r"

def Kind.stat : Kind → String
  | .power => "power"
  | .corr => "corr"

/-- nan for 0/0. -/
def val : Option ℚ → Binned.Val
  | some q => .fin q
  | none => .nan

/-- The columns of a statistic: two for a complex one. -/
def statCols (k : Kind) (name : String) (vs : List (Option ℚ × Option ℚ)) : List Binned.Col :=
  match k with
  | .power => [⟨name ++ ".real", false, vs.map fun v => val v.1⟩, ⟨name ++ ".imag", false, vs.map fun v => val v.2⟩]
  | .corr => [⟨name, false, vs.map fun v => val v.1⟩]

/-- Index pairs of an array of shape `(n, m)` in C order. -/
def pairs (n m : Nat) : List (Nat × Nat) := (List.range n).flatMap fun i => (List.range m).map fun j => (i, j)

/-- The columns of the statistic (fftpower.py 297-313, fftcorr.py 180-196). -/
def statData (k : Kind) (oneD : Bool) (xedges muedges : List ℚ) (modes : List (List (List Project.Mode))) (poles : List Nat) : List Binned.Col :=
  let rs := (pairs (xedges.length - 1) (muedges.length - 1)).map fun p =>
    Project.result2d k.hermitian (xedges.map (· ^ 2)) muedges modes poles p.1 p.2
  [⟨k.dim, false, rs.map fun r => val r.1⟩] ++ (if oneD then [] else [⟨"mu", false, rs.map fun r => val r.2.1⟩])
    ++ statCols k k.stat (rs.map fun r => (r.2.2.1, r.2.2.2.1)) ++ [⟨"modes", true, rs.map fun r => .fin r.2.2.2.2⟩]

/-- The columns of the multipoles (fftpower.py 315-326, fftcorr.py 198-209). -/
def poleData (k : Kind) (xedges muedges : List ℚ) (modes : List (List (List Project.Mode))) (poles : List Nat) : List Binned.Col :=
  let rs := (List.range (xedges.length - 1)).map fun i => Project.result1d k.hermitian (xedges.map (· ^ 2)) muedges modes poles i
  [⟨k.dim, false, rs.map fun r => val r.1⟩]
    ++ (poles.mapIdx fun p l => statCols k (k.stat ++ "_" ++ toString l) (rs.map fun r => r.2.1.getD p (none, none))).flatten
    ++ [⟨"modes", true, rs.map fun r => .fin r.2.2⟩]

/-- `numpy.squeeze` of an array of the given shape and the assignment `power[col][:] = ...` (fftpower.py 310-313), which is an IndexError
for an array of no dimensions. -/
def squeezeShape (s : List Nat) : Except Err (List Nat) :=
  if s.filter (· ≠ 1) = [] then .error .indexError else .ok (s.filter (· ≠ 1))

/-- The object. The attribute `poles` may be missing (`none`), or be `None`. -/
structure Obj where
  attrs : Attrs
  stat : Binned.BS Attrs
  poles : Option (Option (Binned.BS Attrs))

/-- The coordinates passed for the multipoles: those of the statistic (fftpower.py 355), or the ones found with the edges (fftcorr.py 233). -/
def poleCoords (k : Kind) (b : Binned.BS Attrs) (coords : Option (List ℚ)) : Option (List ℚ) :=
  match k with
  | .power => b.coords.head?
  | .corr => coords

/-- `_make_datasets` (fftpower.py 348-359, fftcorr.py 226-235). -/
def makeDatasets (k : Kind) (a : Attrs) (xedges muedges : List ℚ) (coords : Option (List ℚ)) (shape : List Nat) (data : List Binned.Col)
    (pdata : Option (List Binned.Col)) : Except Err (Binned.BS Attrs × Option (Binned.BS Attrs)) :=
  (lift (if a.mode = "1d" then Binned.init [k.dim] [xedges] shape data ["modes"] (some [coords]) a
    else Binned.init [k.dim, "mu"] [xedges, muedges] shape data ["modes"] (some [coords, none]) a)).bind fun b =>
  match pdata with
  | none => .ok (b, none)
  | some pd =>
    (lift (Binned.init [k.dim] [b.edges.headD []] [xedges.length - 1] pd ["modes"]
      (some [poleCoords k b coords]) a)).bind fun p => .ok (b, some p)

/-- `run` (fftpower.py 227-328, fftcorr.py 100-212). `a` are the attributes before. Edges whose squares do not increase are a ValueError of
`numpy.digitize` (squares that decrease, which it accepts, are left out); two columns of one name are a ValueError of `numpy.dtype`. -/
def run (e : Env) (k : Kind) (a : Attrs) (m1 m2 : Mesh) : Except Err Obj :=
  let Nmu := if a.mode = "1d" then 1 else a.Nmu
  let (n1, n2, sh) := Corr.powerAttrs (isSame m1 m2) (e.count m1.src) (e.count m2.src) (e.shot m1.src)
  let a' : Attrs := { a with Nmu := Nmu, N1 := some n1, N2 := some n2, shotnoise := some sh }
  let modes := e.stat3d k a.nmesh m1.src m2.src
  (xBins e k a modes).bind fun bins =>
    let mu := muEdges k Nmu
    if ¬ (bins.1.map (· ^ 2)).Pairwise (· ≤ ·) then .error .valueError
    else if a.poles.any (· < 0) then .error .valueError
    else
      let poles := a.poles.map Int.toNat
      (squeezeShape [bins.1.length - 1, Nmu]).bind fun shape =>
        if ¬ poles.Nodup then .error .valueError
        else if bins.1 = [] then .error .valueError
        else
          (makeDatasets k a' bins.1 mu bins.2 shape (statData k (a.mode = "1d") bins.1 mu modes poles)
            (if poles = [] then none else some (poleData k bins.1 mu modes poles))).bind fun r =>
          .ok ⟨a', r.1, some r.2⟩

/-- `__init__` (fftpower.py 194-228, fftcorr.py 63-98). -/
def new (e : Env) (k : Kind) (first : Src) (second : Option Src) (g : Args) : Except Err Obj :=
  if g.mode ≠ "1d" ∧ g.mode ≠ "2d" then .error .valueError
  else
    match g.los with
    | none => .error .valueError
    | some los =>
      if los.length ≠ 3 then .error .valueError
      else if ¬ Binned.allclose (los.map (· ^ 2)).sum 1 then .error .valueError
      else
        (castBoth g.box g.nmesh first second).bind fun ms =>
          run e k ⟨ms.1.nmesh, ms.1.box, ms.1.box.prod, g.mode, los, g.poles.getD [], g.dx.getD (dxDefault e k ms.1.box ms.1.nmesh), g.xmin,
            g.xmax, g.Nmu, none, none, none⟩ ms.1 ms.2

/-- `__getstate__` (fftpower.py 336-341, fftcorr.py 213-218). -/
structure State where
  stat : Binned.State Attrs
  poles : Option (Binned.State Attrs)
  attrs : Attrs

def getstate (o : Obj) : Except Err State :=
  match o.poles with
  | none => .error .attributeError
  | some p => .ok ⟨Binned.getstate o.stat, p.map Binned.getstate, o.attrs⟩

/-- `__setstate__` (fftpower.py 343-347, fftcorr.py 220-224) on an empty object: `poles` is set only if there are some. -/
def setstate (s : State) : Except Err Obj :=
  (lift (Binned.fromState s.stat)).bind fun b =>
    match s.poles with
    | none => .ok ⟨s.attrs, b, none⟩
    | some p => (lift (Binned.fromState p)).bind fun p => .ok ⟨s.attrs, b, some (some p)⟩

/-- `save` followed by `load` (fftpower.py 57-89); JSON is the subject of `Verif.Json`. Rank 0 writes and reads, all ranks get the state. -/
def saveLoad (o : Obj) : Except Err Obj := (getstate o).bind setstate

/-- Reading the attribute `poles`. -/
def readPoles (o : Obj) : Except Err (Option (Binned.BS Attrs)) :=
  match o.poles with
  | none => .error .attributeError
  | some p => .ok p

end NBK.FftObj
