import Verif.ConvObj.Model
import Mathlib.Algebra.BigOperators.Group.Finset.Basic
import Mathlib.Algebra.Module.LinearMap.Defs
import Mathlib.Algebra.Algebra.Rat

/-!
# Model of `ConvolvedFFTPower` of catalogs: from the rows on the ranks to the multipoles

`FKPCatalog.to_mesh` (nbodykit/algorithms/convpower/catalog.py 151-259), `FKPCatalogMesh.to_real_field` (catalogmesh.py 117-205),
`ConvolvedFFTPower.__init__`, `run` and `_compute_multipoles` (fkp.py 134-280, 408-655), `normalization` and `shotnoise` (657-759) one after the other.
The box, the field and the sums are those of `Verif.Fkp`, the multipoles those of `Verif.Convpower`, the bins those of `Verif.Project`, the object is that
of `Verif.ConvObj`. The window of the resampler, the exponentials of the Fourier transform, the spherical harmonics and the wavenumbers are tables
(parameters). Values of the fields are in a ring `K` that contains the rational numbers. The two meshes have the same `Nmesh`; attributes of the catalogs
whose names begin with `data.` or `randoms.` are left out.
-/
namespace NBK.Survey
open NBK

/-- A row of `data` or `randoms` with its columns by name. -/
structure Raw where
  pos : Fkp.Axis → ℚ
  flag : String → Bool
  num : String → ℚ

/-- A `FKPCatalog`: the rows of both species on every rank, `attrs['BoxSize']` and `attrs['BoxPad']`. -/
structure Survey where
  data : List (List Raw)
  randoms : List (List Raw)
  boxSize : Option (Fkp.Axis → ℚ) := none
  boxPad : Fkp.Axis → ℚ := fun _ => 1 / 50

/-- The tables. `win` is the part of a particle that a cell gets, for the resampler, interlacing, the box and the position relative to its center; `ph k x`
is the factor of the cell `x` in the mode `k`; `comp` are the compensations; `ylms` the spherical harmonics for `m` from `-ell` to `ell` on the cells and
on the modes, for the offset of the grid; `coord` are the coordinates of a mode (its value is not used). -/
structure World (n : Nat) (K : Type) [CommRing K] [Algebra ℚ K] where
  win : String → Bool → (Fkp.Axis → ℚ) → (Fkp.Axis → ℚ) → Fin n → ℚ
  ph : Fin n → Fin n → K
  conj : K →+* K
  re : K →ₗ[ℚ] ℚ
  im : K →ₗ[ℚ] ℚ
  comp : String → Fin n → K
  ylms : List ℚ → Nat → List ((Fin n → K) × (Fin n → K))
  coord : List ℚ → List Nat → Fin n → Project.Mode
  hermitian : Bool
  pi : ℚ
  root : ℚ → ℚ

/-- How the run is laid out: the catalogs on the ranks, the chunk size of `get_data_bounds`, the modes that the ranks have, slab by slab. -/
structure Machine (n : Nat) where
  cats : Nat → Survey
  chunk : Nat
  slabs : List (List (List (Fin n)))

/-- The columns that a mesh reads (catalogmesh.py 84-97). The names of `Position` and `Value` are the default ones. -/
def rowOf (m : ConvObj.Mesh) (r : Raw) : Fkp.Row :=
  ⟨r.pos, r.flag m.selection, r.num m.compWeight, r.num m.fkpWeight, r.num m.nbar, r.num "Value"⟩

/-- The catalog with rows read by `f`. -/
def catOf (s : Survey) (f : Raw → Fkp.Row) : Fkp.Fkp :=
  ⟨⟨s.data.map (·.map f), true, true⟩, ⟨s.randoms.map (·.map f), true, true⟩, s.boxSize, s.boxPad⟩

/-- The numbers of a list along the axes. -/
def axes {α : Type} [Zero α] (l : List α) : Fkp.Axis → α := fun a => l.getD a 0

/-- The mesh of `Verif.Fkp` of a mesh object. -/
def meshOf {n : Nat} (mc : Machine n) (m : ConvObj.Mesh) : Fkp.Mesh :=
  ⟨catOf (mc.cats m.source) (rowOf m), axes m.boxSize, axes m.boxCenter, axes m.pmBox, axes m.nmesh⟩

/-- The rows for the norms and the shot noise (fkp.py 690-707, 733-754): with the FKP weight of the second mesh in the place of `Value`, which is not used. -/
def pairRow (m1 m2 : ConvObj.Mesh) (r : Raw) : Fkp.Row := { rowOf m1 r with nbar := r.num m2.nbar, val := r.num m2.fkpWeight }

def pairOf {n : Nat} (mc : Machine n) (m1 m2 : ConvObj.Mesh) : Fkp.Fkp := catOf (mc.cats m1.source) (pairRow m1 m2)

/-- What painting leaves in `attrs` of the field for a species (source/mesh/catalog.py 378-386, catalogmesh.py 158-200): the shot noise is removed and `W`
is that of the completeness weights. -/
def speciesMeta (name : String) (c : Fkp.Cat) (nmesh : List Nat) : List (String × ℚ) :=
  [(name ++ ".N", (c.selected.map List.length).sum), (name ++ ".W", Fkp.weightedTotal c), (name ++ ".W2", Fkp.allSum c fun r => (r.comp * r.fkp) ^ 2),
    (name ++ ".num_per_cell", Fkp.allSum c (fun r => r.comp * r.fkp) / (nmesh.prod : Nat))]

/-- `to_real_field`: the metadata (catalogmesh.py 158-200). Randoms that have no rows are not painted. `alpha` is NaN if both weights are 0. -/
def metaOf {n : Nat} (mc : Machine n) (m : ConvObj.Mesh) (nmesh : List Nat) : ConvObj.Meta :=
  let f := (meshOf mc m).cat
  ⟨Fkp.alpha f, speciesMeta "data" f.data nmesh ++
    if 0 < f.randoms.csize then speciesMeta "randoms" f.randoms nmesh else [("randoms.W", Fkp.weightedTotal f.randoms)],
    Fkp.weightedTotal f.data = 0 ∧ Fkp.weightedTotal f.randoms = 0⟩

section
variable {n : Nat} {K : Type} [CommRing K] [Algebra ℚ K]

/-- The painted field of a mesh, where it is finite. -/
def fieldOf (w : World n K) (mc : Machine n) (m : ConvObj.Mesh) (x : Fin n) : K :=
  algebraMap ℚ K ((Fkp.toRealField (w.win m.resampler m.interlaced) (meshOf mc m) x).getD 0)

/-- The field has no value that is not a number. -/
def finite (w : World n K) (mc : Machine n) (m : ConvObj.Mesh) : Bool :=
  (List.finRange n).all fun x => (Fkp.toRealField (w.win m.resampler m.interlaced) (meshOf mc m) x).isSome

/-- The modes that the ranks have with the values `f` (fftpower.py 590-640). -/
def modesOf (w : World n K) (mc : Machine n) (box : List ℚ) (nmesh : List Nat) (f : Fin n → K) : List (List (List Project.Mode)) :=
  mc.slabs.map fun rank => rank.map fun slab => slab.map fun k => { w.coord box nmesh k with y := ⟨w.re (f k), w.im (f k)⟩ }

/-- `project_to_basis(y3d, edges)` with one bin of mu (fkp.py 446-447, 620-640): the bin `i` of k. -/
def project (w : World n K) (mc : Machine n) (box : List ℚ) (nmesh : List Nat) (ed : List ℚ) (f : Fin n → K) (i : Nat) :
    Option ℚ × Option ℚ × Option ℚ × Option ℚ × ℚ :=
  Project.result2d w.hermitian (ed.map (· ^ 2)) [-1, 1] (modesOf w mc box nmesh f) [] i 0

/-- The offset of the grid (fkp.py 457): `BoxCenter` is that of `attrs`, the cells are those of `pm`. -/
def offset (m : ConvObj.Mesh) : List ℚ :=
  List.zipWith (· + ·) m.boxCenter (List.zipWith (fun (L : ℚ) (N : Nat) => 1 / 2 * L / N) m.pmBox m.nmesh)

/-- What `_compute_multipoles` (fkp.py 408-655) works with, for the edges, the two meshes, the compensations and the norm. A field with a value that is not
a number gives no number in any bin. -/
def convOf (w : World n K) (mc : Machine n) (ed : List ℚ) (m1 m2 : ConvObj.Mesh) (nmesh : List Nat) (c1 c2 : Option String) (norm : ℚ) :
    Convpower.Env n K ConvObj.Col ConvObj.Col (List (Option ℚ × Option ℚ)) where
  field1 := fieldOf w mc m1
  field2 := fieldOf w mc m2
  r2c := fun f k => ∑ x, w.ph k x * f x
  conj := w.conj
  comp1 := c1.map w.comp
  comp2 := c2.map w.comp
  ylms := w.ylms (offset m1)
  volume := algebraMap ℚ K m1.pmBox.prod
  fourPi := algebraMap ℚ K (4 * w.pi)
  norm := algebraMap ℚ K norm
  projK := (List.range (ed.length - 1)).map fun i => (project w mc m1.pmBox nmesh ed (fun _ => 0) i).1
  projP := fun f => (List.range (ed.length - 1)).map fun i =>
    if finite w mc m1 && finite w mc m2 then
      ((project w mc m1.pmBox nmesh ed f i).2.2.1, (project w mc m1.pmBox nmesh ed f i).2.2.2.1)
    else (none, none)
  projN := (List.range (ed.length - 1)).map fun i => some (project w mc m1.pmBox nmesh ed (fun _ => 0) i).2.2.2.2

/-- The shot noise (fkp.py 711-759) for the norm of the randoms. -/
def shotOf (f : Fkp.Fkp) (al rn : Option ℚ) : Option ℚ :=
  match Fkp.shotnoise f Fkp.Row.val al ⟨none, some rn, none⟩ with
  | .ok v => v
  | .error _ => none

/-- The surroundings of the object. -/
def envOf (w : World n K) (mc : Machine n) : ConvObj.Env n K where
  pi := w.pi
  root := w.root
  modes := fun box nmesh => modesOf w mc box nmesh fun _ => 0
  painted := metaOf mc
  dataNorm := fun m1 m2 al => Fkp.normSum (pairOf mc m1 m2) Fkp.Row.val .data al
  randomsNorm := fun m1 m2 al => Fkp.normSum (pairOf mc m1 m2) Fkp.Row.val .randoms al
  shot := fun m1 m2 al rn => shotOf (pairOf mc m1 m2) al rn
  conv := convOf w mc
  memory := fun _ _ => 0

/-- The box that `to_mesh` finds (catalog.py 108-149, 232-243) with the default columns. -/
def bboxOf (mc : Machine n) (id : Nat) : Except ConvObj.Err (List ℚ × List ℚ) :=
  let f := catOf (mc.cats id) fun r => ⟨r.pos, r.flag "Selection", 0, 0, 0, 0⟩
  match Fkp.defineBbox mc.chunk f (f.get (Fkp.boxSpecies f none)) with
  | .ok b => .ok ([b.1 0, b.1 1, b.1 2], [b.2 0, b.2 1, b.2 2])
  | .error _ => .error .valueError

/-- A catalog as a source has the box of its rows. -/
def located (mc : Machine n) : ConvObj.Src → ConvObj.Src
  | .catalog c => .catalog { c with bbox := bboxOf mc c.id }
  | s => s

/-- `ConvolvedFFTPower(first, poles, ...)` on the ranks: the mesh objects afterwards and the result. -/
def call (w : World n K) (mc : Machine n) (h : ConvObj.Heap) (g : ConvObj.Args) : ConvObj.Heap × Except ConvObj.Err ConvObj.Obj :=
  ConvObj.new (envOf w mc) h { g with first := located mc g.first, second := g.second.map (located mc) }

end
end NBK.Survey
