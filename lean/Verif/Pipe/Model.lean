import Verif.Paint.Model
import Verif.FftObj.Model

/-!
# Model of `FFTPower` and `FFTCorr` of particles: from the rows on the ranks to the results

`FFTBase.__init__` (nbodykit/algorithms/fftpower.py 22-56), `_compute_3d_power` (91-140), `run` (229-329), `FFTCorr.run` (fftcorr.py 100-212),
`MeshSource._paint_XXX` (base/mesh.py 256-337) and `CatalogMesh.to_real_field` (source/mesh/catalog.py 150-402) one after the other. Painting is that
of `Verif.Paint`, the checks, bins and results are those of `Verif.FftObj`. Numbers are rational; the window of the resampler, the exponentials of the
Fourier transform and the coordinates are tables (parameters). Cells and modes are numbered. Interlacing is a linear map of the deposits, so that it is
part of the window. Filters are left out but for the compensation, as are meshes of different `Nmesh`.
-/
namespace NBK.Pipe
open Project (Cx)

def mul (a b : Cx) : Cx := ⟨a.re * b.re - a.im * b.im, a.re * b.im + a.im * b.re⟩
def conj (a : Cx) : Cx := ⟨a.re, -a.im⟩
def scale (q : ℚ) (a : Cx) : Cx := ⟨q * a.re, q * a.im⟩
def sum (l : List Cx) : Cx := ⟨(l.map Cx.re).sum, (l.map Cx.im).sum⟩

/-- The mesh: the number of cells and of stored modes, the part `dep p x` of the mass at position `p` which the cell `x` gets, `tw m x` the factor
`exp(-i k x)` of `r2c`, `back m x` the factor of `c2r` (with the modes which are not stored), the mode 0, and the coordinates of modes and of
separations (the value in them is not used). -/
structure World where
  ncells : Nat
  nmodes : Nat
  dep : Nat → Nat → ℚ
  tw : Nat → Nat → Cx
  back : Nat → Nat → Cx
  zero : Nat
  mode : Nat → Project.Mode
  sep : Nat → Project.Mode
  pi : ℚ
  root : ℚ → ℚ

/-- What a source is: particles, rank by rank, with the compensation (1 if there is none), or the values of a field. Attributes `N` and `shotnoise` of
the mesh hide those found while painting (base/mesh.py 331-332). -/
inductive Content where
  | particles (comp : Nat → ℚ) (attrN : Option Nat) (attrShot : Option ℚ) (rows : List (List Paint.Row))
  | cells (attrN : Option Nat) (attrShot : Option ℚ) (f : Nat → ℚ)

/-- How the run is laid out: the decomposition of the particles, `paint_chunk_size`, and the modes and cells that the ranks have, slab by slab. -/
structure Machine where
  content : Nat → Content
  dest : Paint.Row → List Nat
  maxc : Nat
  modes : List (List (List Nat))
  cells : List (List (List Nat))

inductive Err where
  | paint (e : Paint.Err)
  | obj (e : FftObj.Err)
  /-- outside the model -/
  | leftOut
  deriving DecidableEq

/-- The value of a cell after painting (catalog.py 281-292) and the normalization (catalog.py 394-402). -/
def cellOf (w : World) (r : Paint.Result) (x : Nat) : ℚ :=
  match r.factor with
  | none => 1
  | some f => f * (r.mesh.map fun row => row.weight * row.value * w.dep row.pos x).sum

/-- `r2c` of pmesh. -/
def r2c (w : World) (f : Nat → ℚ) (m : Nat) : Cx := sum ((List.range w.ncells).map fun x => scale (f x / w.ncells) (w.tw m x))

/-- A field: its coefficients and the attributes `N` and `shotnoise`. -/
structure Fld where
  coef : Nat → Cx
  N : Option Nat
  shot : Option ℚ

/-- `source.compute(mode='complex')` (base/mesh.py 256-337). `to_real_field` is called with `normalize=True`, its default. -/
def compute (w : World) (mc : Machine) (volume : ℚ) : Content → Except Err Fld
  | .particles comp n s rows =>
    match Paint.paint mc.dest mc.maxc rows w.ncells volume true with
    | .error e => .error (.paint e)
    | .ok r => .ok ⟨fun m => scale (comp m) (r2c w (cellOf w r) m), some (n.getD r.N), some (s.getD r.shotnoise)⟩
  | .cells n s f => .ok ⟨r2c w f, n, s⟩

/-- The power of a mode (fftpower.py 109-125), 0 for the mode 0. -/
def power (w : World) (volume : ℚ) (c1 c2 : Nat → Cx) (m : Nat) : Cx :=
  if m = w.zero then ⟨0, 0⟩ else scale volume (mul (c1 m) (conj (c2 m)))

/-- The correlation at a separation (fftcorr.py 149-156). -/
def corr (w : World) (volume : ℚ) (c1 c2 : Nat → Cx) (x : Nat) : Cx :=
  ⟨1 / volume * (sum ((List.range w.nmodes).map fun m => mul (power w volume c1 c2 m) (w.back m x))).re, 0⟩

/-- The modes or separations with their values, as the ranks have them. -/
def stat (w : World) (mc : Machine) (volume : ℚ) (c1 c2 : Nat → Cx) : FftObj.Kind → List (List (List Project.Mode))
  | .power => mc.modes.map fun rank => rank.map fun slab => slab.map fun m => { w.mode m with y := power w volume c1 c2 m }
  | .corr => mc.cells.map fun rank => rank.map fun slab => slab.map fun x => { w.sep x with y := corr w volume c1 c2 x }

/-- The surroundings of `FftObj.run` for two computed fields. -/
def envOf (w : World) (mc : Machine) (volume : ℚ) (s1 : Nat) (f1 f2 : Fld) : FftObj.Env :=
  ⟨w.pi, w.root, fun k _ _ _ => stat w mc volume f1.coef f2.coef k, fun s => if s = s1 then f1.N else f2.N,
    fun s => if s = s1 then f1.shot else f2.shot⟩

/-- The second field (fftpower.py 103-109): computed only if it is another object. -/
def second (w : World) (mc : Machine) (m1 m2 : FftObj.Mesh) (f1 : Fld) : Except Err Fld :=
  if FftObj.isSame m1 m2 then .ok f1 else compute w mc m1.box.prod (mc.content m2.src)

def liftObj {α : Type} : Except FftObj.Err α → Except Err α
  | .ok a => .ok a
  | .error e => .error (.obj e)

/-- `run` (fftpower.py 229-329, fftcorr.py 100-212). -/
def run (w : World) (mc : Machine) (k : FftObj.Kind) (a : FftObj.Attrs) (m1 m2 : FftObj.Mesh) : Except Err FftObj.Obj :=
  if m1.nmesh ≠ m2.nmesh then .error .leftOut
  else
    (compute w mc m1.box.prod (mc.content m1.src)).bind fun f1 =>
      (second w mc m1 m2 f1).bind fun f2 => liftObj (FftObj.run (envOf w mc m1.box.prod m1.src f1 f2) k a m1 m2)

/-- The checks of the arguments (fftpower.py 194-225, fftcorr.py 63-96) and the attributes. -/
def checked (w : World) (k : FftObj.Kind) (first : FftObj.Src) (sec : Option FftObj.Src) (g : FftObj.Args) :
    Except FftObj.Err (FftObj.Attrs × FftObj.Mesh × FftObj.Mesh) :=
  if g.mode ≠ "1d" ∧ g.mode ≠ "2d" then .error .valueError
  else
    match g.los with
    | none => .error .valueError
    | some los =>
      if los.length ≠ 3 then .error .valueError
      else if ¬ Binned.allclose (los.map (· ^ 2)).sum 1 then .error .valueError
      else
        (FftObj.castBoth g.box g.nmesh first sec).bind fun ms =>
          .ok (⟨ms.1.nmesh, ms.1.box, ms.1.box.prod, g.mode, los, g.poles.getD [],
            g.dx.getD (FftObj.dxDefault ⟨w.pi, w.root, fun _ _ _ _ => [], fun _ => none, fun _ => none⟩ k ms.1.box ms.1.nmesh), g.xmin, g.xmax, g.Nmu,
            none, none, none⟩, ms.1, ms.2)

/-- `FFTPower(first, mode, ...)` or `FFTCorr(first, mode, ...)`. -/
def call (w : World) (mc : Machine) (k : FftObj.Kind) (first : FftObj.Src) (sec : Option FftObj.Src) (g : FftObj.Args) : Except Err FftObj.Obj :=
  (liftObj (checked w k first sec g)).bind fun c => run w mc k c.1 c.2.1 c.2.2

end NBK.Pipe
