import Mathlib.Data.Rat.Defs
import Mathlib.Algebra.Order.Ring.Rat
import Mathlib.Data.Rat.Floor
import Mathlib.Data.Fin.VecNotation
import Verif.Bounds.Model

/-!
# Model of `FKPCatalog`, `FKPCatalogMesh` and the sums of `ConvolvedFFTPower`
(nbodykit/algorithms/convpower/catalog.py, catalogmesh.py, fkp.py)

Numbers are rationals.  A value that is not finite in the code (`inf` or `NaN`) is `none`.
A catalog is the list of its rows on every rank.  Columns are read by name in the code; here the columns
of a row are the fields of a structure, and a flag says whether a column that has no default exists.
-/
namespace NBK.Fkp

/-- The exceptions that are raised. -/
inductive Err where
  | valueError
  | notImplemented
  | unboundLocal
  deriving DecidableEq, Repr

/-- The three Cartesian axes. -/
abbrev Axis := Fin 3

/-- A row of `data` or `randoms`: the columns `Position`, `Selection`, `Weight` (the completeness weight),
`FKPWeight`, `NZ` (nbar) and `Value` with the default names (catalog.py 156-160). -/
structure Row where
  pos : Axis → ℚ
  sel : Bool
  comp : ℚ
  fkp : ℚ
  nbar : ℚ
  val : ℚ

/-- A catalog: its rows on every rank, and whether it has the columns `NZ` and `FKPWeight`
(`Weight`, `Selection` and `Value` always have a default). -/
structure Cat where
  rows : List (List Row)
  hasNbar : Bool
  hasFkp : Bool

/-- `csize`: the number of rows of all ranks. -/
def Cat.csize (c : Cat) : Nat := (c.rows.map List.length).sum

/-- The rows with `Selection` true, on every rank (`source[name][sel]`). -/
def Cat.selected (c : Cat) : List (List Row) := c.rows.map fun rs => rs.filter Row.sel

/-- `FKPWeightFromNbar(P0, nbar)` for one object (catalog.py 7-27). `1 + P0 * nbar = 0` gives `inf` in the
code and 0 here; the theorems need `P0` and `nbar` that are not negative. -/
def fkpWeight (P0 nbar : ℚ) : ℚ := if P0 ≠ 0 then 1 / (1 + P0 * nbar) else 1

/-- The column `FKPWeight` is set, for one species (catalog.py 89-98). -/
def setFkp (P0 : Option ℚ) (c : Cat) : Cat :=
  match P0 with
  | some p => { c with rows := c.rows.map fun rs => rs.map fun r => { r with fkp := fkpWeight p r.nbar }, hasFkp := true }
  | none => if c.hasFkp then c else
      { c with rows := c.rows.map fun rs => rs.map fun r => { r with fkp := 1 }, hasFkp := true }

/-- The catalog `data[:0]` (catalog.py 77-79). -/
def Cat.empty (c : Cat) : Cat := { c with rows := c.rows.map fun _ => [] }

/-- An `FKPCatalog`: the two species (copies of the arguments), `attrs['BoxSize']` and `attrs['BoxPad']`. -/
structure Fkp where
  data : Cat
  randoms : Cat
  boxSize : Option (Axis → ℚ)
  boxPad : Axis → ℚ

/-- `FKPCatalog.__init__` (catalog.py 75-106). The arguments are not modified. -/
def init (data : Cat) (randoms : Option Cat) (boxSize : Option (Axis → ℚ)) (boxPad : Axis → ℚ) (P0 : Option ℚ) :
    Except Err Fkp :=
  let ran := randoms.getD data.empty
  if data.hasNbar && ran.hasNbar then
    .ok { data := setFkp P0 data, randoms := setFkp P0 ran, boxSize := boxSize, boxPad := boxPad }
  else .error .valueError

/-- `_define_bbox` along one axis (catalog.py 127-149): `D` holds the coordinates and the flags of the
selection, `c` is the chunk size of `get_data_bounds`. The result is the size and the center. -/
def bboxAxis (c : Nat) (D : List (List (ℚ × Bool))) (size : Option ℚ) (pad : ℚ) : Except Err (ℚ × ℚ) :=
  match Bounds.getDataBounds c D with
  | .error _ => .error .valueError
  | .ok (m, M) =>
    match m, M with
    | some lo, some hi =>
      .ok (match size with
            | none => (⌈|hi - lo| * (1 + pad)⌉ : ℚ)
            | some L => L,
           (1 / 2) * (lo + hi))
    | _, _ => .error .valueError

/-- The coordinates of a catalog along an axis, with the flags. -/
def Cat.coords (c : Cat) (a : Axis) : List (List (ℚ × Bool)) := c.rows.map fun rs => rs.map fun r => (r.pos a, r.sel)

/-- `_define_bbox` (catalog.py 108-149). -/
def defineBbox (c : Nat) (f : Fkp) (cat : Cat) : Except Err ((Axis → ℚ) × (Axis → ℚ)) := do
  let b0 ← bboxAxis c (cat.coords 0) (f.boxSize.map (· 0)) (f.boxPad 0)
  let b1 ← bboxAxis c (cat.coords 1) (f.boxSize.map (· 1)) (f.boxPad 1)
  let b2 ← bboxAxis c (cat.coords 2) (f.boxSize.map (· 2)) (f.boxPad 2)
  pure (![b0.1, b1.1, b2.1], ![b0.2, b1.2, b2.2])

/-- `bbox_from_species`: one of the two names. -/
inductive Species where
  | data
  | randoms
  deriving DecidableEq, Repr

/-- The species with a name. -/
def Fkp.get (f : Fkp) : Species → Cat
  | .data => f.data
  | .randoms => f.randoms

/-- The species that defines the box (catalog.py 232-239). -/
def boxSpecies (f : Fkp) (s : Option Species) : Species :=
  match s with
  | some s => s
  | none => if f.randoms.csize > 0 then .randoms else .data

/-- An `FKPCatalogMesh`: the catalog, `attrs['BoxSize']`, `attrs['BoxCenter']`, the `BoxSize` of its
`ParticleMesh` `pm` and `Nmesh` (catalogmesh.py 46-74, base/mesh.py 50-54). -/
structure Mesh where
  cat : Fkp
  boxSize : Axis → ℚ
  boxCenter : Axis → ℚ
  pmSize : Axis → ℚ
  nmesh : Axis → Nat

/-- `FKPCatalog.to_mesh` (catalog.py 218-259): `BoxSize` and `BoxCenter` given by the caller win; `pm` is made
from the `BoxSize` of this call. -/
def toMesh (c : Nat) (f : Fkp) (nmesh : Axis → Nat) (boxSize boxCenter : Option (Axis → ℚ)) (s : Option Species) :
    Except Err Mesh := do
  let b ← defineBbox c f (f.get (boxSpecies f s))
  pure { cat := f, boxSize := boxSize.getD b.1, boxCenter := boxCenter.getD b.2, pmSize := boxSize.getD b.1,
         nmesh := nmesh }

/-- `FKPCatalogMesh.recenter_box` (catalogmesh.py 101-115): only the attributes change, not `pm`. -/
def Mesh.recenterBox (m : Mesh) (size center : Axis → ℚ) : Mesh := { m with boxSize := size, boxCenter := center }

/-- `RecenteredPosition` (catalogmesh.py 207-216). -/
def Mesh.recentered (m : Mesh) (r : Row) : Axis → ℚ := fun a => r.pos a - m.boxCenter a

/-- The sum of a quantity over the selected rows: the local sums, then `allreduce`. -/
def allSum (c : Cat) (g : Row → ℚ) : ℚ := (c.selected.map fun rs => (rs.map g).sum).sum

/-- `weighted_total` (catalogmesh.py 226-244). -/
def weightedTotal (c : Cat) : ℚ := allSum c Row.comp

/-- `alpha` (catalogmesh.py 158): the ratio of two numpy floats, `inf` or `NaN` if the divisor is 0. -/
def alpha (f : Fkp) : Option ℚ :=
  if weightedTotal f.randoms = 0 then none else some (weightedTotal f.data / weightedTotal f.randoms)

/-- What painting a species adds to the cell `x` (catalogmesh.py 84-97, source/mesh/catalog.py 217-330): the mass
`Weight * Value` of every selected row, with `Weight` the `TotalWeight` `comp * fkp`, times the window.
`win box pos x` is the share of the cell `x` for a particle at `pos` (pmesh). -/
def paint {X : Type} (win : (Axis → ℚ) → (Axis → ℚ) → X → ℚ) (m : Mesh) (c : Cat) (x : X) : ℚ :=
  allSum c fun r => r.comp * r.fkp * r.val * win m.boxSize (m.recentered r) x

/-- The volume of a cell of `pm` (catalogmesh.py 181). -/
def Mesh.cellVolume (m : Mesh) : ℚ :=
  (m.pmSize 0 / m.nmesh 0) * (m.pmSize 1 / m.nmesh 1) * (m.pmSize 2 / m.nmesh 2)

/-- `FKPCatalogMesh.to_real_field` (catalogmesh.py 152-194), cell by cell: data minus `alpha` times randoms, over
the volume of a cell. A product or sum with a value that is not finite is not finite. -/
def toRealField {X : Type} (win : (Axis → ℚ) → (Axis → ℚ) → X → ℚ) (m : Mesh) (x : X) : Option ℚ :=
  let real := some (paint win m m.cat.data x)
  let real := if m.cat.randoms.csize > 0 then do
      let r ← real
      let a ← alpha m.cat
      pure (r + paint win m m.cat.randoms x * (-1 * a))
    else real
  real.map (· / m.cellVolume)

/-- The columns of `first` and `second` that `ConvolvedFFTPower` uses: the names of selection, completeness
weight and nbar, and an identifier of the catalog object (fkp.py 799-808). -/
structure Use where
  source : Nat
  selection : String
  compWeight : String
  nbar : String
  deriving DecidableEq

/-- `is_valid_crosscorr` (fkp.py 799-808). -/
def isValidCrosscorr (first second : Use) : Bool :=
  if second.source ≠ first.source then false
  else if second.selection ≠ first.selection ∨ second.compWeight ≠ first.compWeight ∨ second.nbar ≠ first.nbar then false
  else true

/-- The joint box along an axis (fkp.py 172-180): `argmax` takes the first maximum. -/
def jointAxis (l1 c1 l2 c2 : ℚ) : ℚ × ℚ := if l1 < l2 then (l2, c2) else (l1, c1)

/-- The boxes are joined if the sizes differ (fkp.py 170-184). -/
def joinBoxes (m1 m2 : Mesh) : Mesh × Mesh :=
  if m1.boxSize 0 = m2.boxSize 0 ∧ m1.boxSize 1 = m2.boxSize 1 ∧ m1.boxSize 2 = m2.boxSize 2 then (m1, m2)
  else
    let j := fun a => jointAxis (m1.boxSize a) (m1.boxCenter a) (m2.boxSize a) (m2.boxCenter a)
    (m1.recenterBox (fun a => (j a).1) (fun a => (j a).2), m2.recenterBox (fun a => (j a).1) (fun a => (j a).2))

/-- The checks and the joint box of `ConvolvedFFTPower.__init__` (fkp.py 154-184). -/
def initPower (u1 u2 : Use) (m1 m2 : Mesh) : Except Err (Mesh × Mesh) :=
  if isValidCrosscorr u1 u2 then .ok (joinBoxes m1 m2) else .error .notImplemented

/-- The attributes that `normalization` and `shotnoise` read and write. The FKP weight of the second mesh
may be another column: `second` gives it for a row. -/
structure Attrs where
  dataNorm : Option (Option ℚ)
  randomsNorm : Option (Option ℚ)
  shotnoise : Option (Option ℚ)

/-- The sum of `normalization` (fkp.py 685-707). For the randoms every term is multiplied by `alpha`; the sum of no
terms is 0 whatever `alpha` is. -/
def normSum (f : Fkp) (second : Row → ℚ) (s : Species) (al : Option ℚ) : Option ℚ :=
  match s with
  | .data => some (allSum f.data fun r => r.nbar * r.comp * r.fkp * second r)
  | .randoms =>
    if f.randoms.selected.flatten.isEmpty then some 0
    else al.map fun a => allSum f.randoms fun r => r.nbar * r.comp * r.fkp * second r * a

/-- `normalization(name, alpha)` (fkp.py 657-709): the value is kept in `attrs`. -/
def normalization (f : Fkp) (second : Row → ℚ) (s : Species) (al : Option ℚ) (at' : Attrs) : Option ℚ × Attrs :=
  match s with
  | .data =>
    match at'.dataNorm with
    | some v => (v, at')
    | none => let v := normSum f second .data al; (v, { at' with dataNorm := some v })
  | .randoms =>
    match at'.randomsNorm with
    | some v => (v, at')
    | none => let v := normSum f second .randoms al; (v, { at' with randomsNorm := some v })

/-- The quotient of two numbers, not finite if the divisor is 0. -/
def div (a b : Option ℚ) : Option ℚ := do
  let a ← a
  let b ← b
  if b = 0 then none else some (a / b)

/-- `shotnoise(alpha)` (fkp.py 711-759). If `'shotnoise'` is in `attrs` already the local variables of the last
lines are not bound. -/
def shotnoise (f : Fkp) (second : Row → ℚ) (al : Option ℚ) (at' : Attrs) : Except Err (Option ℚ) :=
  match at'.shotnoise with
  | some _ => .error .unboundLocal
  | none =>
    let d := allSum f.data fun r => r.comp ^ 2 * r.fkp * second r
    let p := al.map fun a => d + allSum f.randoms (fun r => r.comp ^ 2 * r.fkp * second r) * a ^ 2
    .ok (div p (at'.randomsNorm.getD none))

/-- `numpy.allclose(a, b, rtol)` with the default `atol` of `1e-8`. -/
def allclose (a b rtol : ℚ) : Bool := |a - b| ≤ 1 / 10 ^ 8 + rtol * |b|

/-- The factor `norm` and the check of `_compute_multipoles` (fkp.py 544-566). A comparison with `NaN` is false
(`none` is taken for `NaN` here: the weights of the randoms sum to 0). -/
def normFactor (dataNorm randomsNorm : Option ℚ) : Except Err ℚ :=
  match randomsNorm with
  | none => .ok 1
  | some r =>
    if r > 0 then
      match dataNorm with
      | none => .error .valueError
      | some d => if allclose d r (5 / 100) then .ok (1 / r) else .error .valueError
    else .ok 1

/-- The part of `_compute_multipoles` that sets the attributes (fkp.py 541-566 and 646): the two norms, the factor,
then the shot noise. -/
def setAttrs (f : Fkp) (second : Row → ℚ) (at' : Attrs) : Except Err (ℚ × Attrs) := do
  let al := alpha f
  let (d, at1) := normalization f second .data al at'
  let (r, at2) := normalization f second .randoms al at1
  let n ← normFactor d r
  let s ← shotnoise f second al at2
  pure (n, { at2 with shotnoise := some s })

/-- The attributes of a new object. -/
def noAttrs : Attrs := ⟨none, none, none⟩

end NBK.Fkp
