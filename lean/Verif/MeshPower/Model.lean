import Verif.Pipe.Model
import Verif.SpeciesMesh.Model
import Verif.Recon.Model

/-!
# Model of `FFTPower` and `FFTCorr` of meshes of several species and of reconstructed fields

`FFTBase.__init__`, `_compute_3d_power` and `run` (nbodykit/algorithms/fftpower.py 22-140, 229-329; fftcorr.py 100-212) of the meshes of
`MultipleSpeciesCatalog.to_mesh` (source/mesh/species.py 110-182) and of `FFTRecon` (algorithms/fftrecon.py 131-268), which are meshes like others. The rest is that of
`Verif.Pipe`. A field with NaN in all cells, or a shot noise that is NaN, is an error of the model: the results would be NaN.
-/
namespace NBK.MeshPower
open NBK.Pipe (World Machine Content Fld)

/-- The arguments of `FFTRecon` for a mesh of `n` cells and `m` modes (fftrecon.py 65-76). -/
structure ReconSrc where
  n : Nat
  m : Nat
  share : Recon.V3 → Fin n → ℚ
  t : Recon.Fft n m
  a : Recon.Attrs
  smooth : ℚ → ℚ
  scheme : Recon.Scheme
  data : List (List Recon.V3)
  ran : List (List Recon.V3)

/-- The sources: one catalog or a field, several species with their compensation, a reconstruction. -/
inductive Source where
  | mesh (c : Content)
  | species (comp : Nat → ℚ) (attrN : Option Nat) (attrShot : Option ℚ) (sp : List SpeciesMesh.Species)
  | recon (r : ReconSrc)

inductive Err where
  | pipe (e : Pipe.Err)
  | recon (e : Recon.Err)
  /-- the field or its shot noise is NaN -/
  | nan
  deriving DecidableEq

def lift {α : Type} : Except Pipe.Err α → Except Err α
  | .ok a => .ok a
  | .error e => .error (.pipe e)

/-- The value of a cell after painting all species with `out=real` and the division by `num_per_cell` (species.py 146-167). -/
def cellOf (w : World) (c : ℚ) (mesh : List Paint.Row) (x : Nat) : ℚ := c * (mesh.map fun row => row.weight * row.value * w.dep row.pos x).sum

/-- `compute(mode='complex')` (base/mesh.py 256-337) of a mesh of several species; attributes of the mesh hide those of the field. -/
def computeSpecies (w : World) (mc : Machine) (volume : ℚ) (comp : Nat → ℚ) (n : Option Nat) (s : Option ℚ) (sp : List SpeciesMesh.Species) : Except Err Fld :=
  match SpeciesMesh.toRealField mc.dest mc.maxc w.ncells volume true sp with
  | .error e => .error (.pipe (.paint e))
  | .ok f =>
    match f.factor with
    | none => .error .nan
    | some c =>
      match s.or f.shotnoise with
      | none => .error .nan
      | some q => .ok ⟨fun m => Pipe.scale (comp m) (Pipe.r2c w (cellOf w c f.mesh) m), some (n.getD f.N), some q⟩

/-- The cells of a field by their numbers. -/
def numbered {n : Nat} (f : Fin n → ℚ) (x : Nat) : ℚ := if h : x < n then f ⟨x, h⟩ else 0

/-- The coefficients of a reconstructed field; it has neither `N` nor `shotnoise` (fftrecon.py 131-137). -/
def toFld (w : World) {n : Nat} : Except Recon.Err (Recon.Field n) → Except Err Fld
  | .error e => .error (.recon e)
  | .ok none => .error .nan
  | .ok (some f) => .ok ⟨Pipe.r2c w (numbered f), none, none⟩

/-- `compute(mode='complex')` (base/mesh.py 256-337) of an `FFTRecon`. -/
def computeRecon (w : World) (mc : Machine) (r : ReconSrc) : Except Err Fld :=
  toFld w (Recon.run r.share r.t r.a r.smooth mc.maxc r.scheme r.data r.ran)

def compute (w : World) (mc : Machine) (volume : ℚ) : Source → Except Err Fld
  | .mesh c => lift (Pipe.compute w mc volume c)
  | .species comp n s sp => computeSpecies w mc volume comp n s sp
  | .recon r => computeRecon w mc r

/-- `run` (fftpower.py 229-329, fftcorr.py 100-212); the second field is computed only if it is another object (fftpower.py 103-109). -/
def run (w : World) (mc : Machine) (src : Nat → Source) (k : FftObj.Kind) (a : FftObj.Attrs) (m1 m2 : FftObj.Mesh) : Except Err FftObj.Obj :=
  if m1.nmesh ≠ m2.nmesh then .error (.pipe .leftOut)
  else
    (compute w mc m1.box.prod (src m1.src)).bind fun f1 =>
      (if FftObj.isSame m1 m2 then .ok f1 else compute w mc m1.box.prod (src m2.src)).bind fun f2 =>
        lift (Pipe.liftObj (FftObj.run (Pipe.envOf w mc m1.box.prod m1.src f1 f2) k a m1 m2))

/-- `FFTPower(first, mode, ...)` or `FFTCorr(first, mode, ...)` of the sources `src`; the contents of the machine are not used. -/
def call (w : World) (mc : Machine) (src : Nat → Source) (k : FftObj.Kind) (first : FftObj.Src) (sec : Option FftObj.Src) (g : FftObj.Args) :
    Except Err FftObj.Obj :=
  (lift (Pipe.liftObj (Pipe.checked w k first sec g))).bind fun c => run w mc src k c.1 c.2.1 c.2.2

end NBK.MeshPower
