import Mathlib.Analysis.Fourier.FiniteAbelian.PontryaginDuality
import Verif.Project.Model

/-!
# Model of the 3D power (`FFTBase._compute_3d_power`, nbodykit/algorithms/fftpower.py 89-140) and of `FFTCorr` (algorithms/fftcorr.py)

The mesh is a finite abelian group `G` (the product of three cyclic groups), the Fourier modes are its characters. Fields have complex values. Modes that are not
stored because of the Hermitian symmetry are modelled as stored (`Verif.Hermitian` treats the half); a rank is a list of slabs.
-/
namespace NBK.Corr

open scoped ComplexConjugate

variable {G : Type} [AddCommGroup G] [Fintype G]

/-- `r2c` of pmesh: normalised by the number of cells. -/
noncomputable def r2c (δ : G → ℂ) (ψ : AddChar G ℂ) : ℂ := (1 / (Fintype.card G : ℂ)) * ∑ x, δ x * ψ (-x)

/-- `c2r` of pmesh: the plain sum over the modes. -/
noncomputable def c2r (c : AddChar G ℂ → ℂ) (r : G) : ℂ := ∑ ψ, c ψ * ψ r

open Classical in
/-- One slab of `s0[...] = s1 * s2.conj()` (fftpower.py 112-114): `p3d` is the array of `c1`, and of `c2` if the two sources are the same. -/
noncomputable def mulSlab {M : Type} (auto : Bool) (c2 st : M → ℂ) (slab : List M) : M → ℂ :=
  fun m => if m ∈ slab then st m * conj ((if auto then st else c2) m) else st m

open Classical in
/-- One slab of `s0[mask] = 0` (fftpower.py 116-121). -/
noncomputable def clearSlab {M : Type} (zero : M) (st : M → ℂ) (slab : List M) : M → ℂ :=
  fun m => if m ∈ slab ∧ m = zero then 0 else st m

/-- The array `p3d` (fftpower.py 101-125), `slabs` being all slabs of all ranks. -/
noncomputable def power3d {M : Type} (zero : M) (V : ℝ) (slabs : List (List M)) (auto : Bool) (c1 c2 : M → ℂ) : M → ℂ :=
  let p := slabs.foldl (mulSlab auto c2) c1
  let p := slabs.foldl (clearSlab zero) p
  fun m => p m * V

/-- `attrs['shotnoise']`, `N1` and `N2` (fftpower.py 127-137): `none` is an attribute the field does not have. -/
def powerAttrs (same : Bool) (n1 n2 : Option ℕ) (shot1 : Option ℚ) : ℕ × ℕ × ℚ :=
  (n1.getD 0, n2.getD 0, if same then shot1.getD 0 else 0)

/-- The three dimensional correlation (fftcorr.py 149-156). -/
noncomputable def corr3d (V : ℝ) (slabs : List (List (AddChar G ℂ))) (auto : Bool) (δ1 δ2 : G → ℂ) (r : G) : ℂ :=
  c2r (power3d 0 V slabs auto (r2c δ1) (r2c δ2)) r * (1 / V)

/-- `numpy.linspace(0, 1, Nmu + 1)` (fftcorr.py 175). -/
def muEdges (Nmu : Nat) : List ℚ := (List.range (Nmu + 1)).map fun i : Nat => (i : ℚ) / Nmu

/-- The binned correlation (fftcorr.py 140, 174-180): `Nmu` is 1 in one dimension; `seps` are the separations with value, rank by rank and slab by slab (a real
field is not Hermitian). -/
def run (oneD : Bool) (Nmu : Nat) (redges : List ℚ) (seps : List (List (List Project.Mode))) (poles : List Nat) (i j : Nat) :
    Option ℚ × Option ℚ × Option ℚ × Option ℚ × ℚ :=
  let Nmu := if oneD then 1 else Nmu
  Project.result2d false (redges.map (· ^ 2)) (muEdges Nmu) seps poles i j

end NBK.Corr
