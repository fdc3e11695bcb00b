import Mathlib.Data.Rat.Defs
import Mathlib.Algebra.Order.Ring.Rat

/-!
# Model of `ConvolvedFFTPower.to_pkmu` (nbodykit/algorithms/convpower/fkp.py 282-338)

Power and wavenumbers are rational (real and imaginary part of a power are treated alike and separately). The Legendre
polynomials of scipy are lists of coefficients, and `quad` integrates them exactly.
-/
namespace NBK.Pkmu

/-- A multipole that is needed is missing (ValueError). -/
inductive Err where
  | valueError
  deriving DecidableEq, Repr

/-- The sum of two polynomials. -/
def padd : List ℚ → List ℚ → List ℚ
  | [], q => q
  | p, [] => p
  | a :: p, b :: q => (a + b) :: padd p q

/-- A polynomial times a number. -/
def pscale (c : ℚ) (p : List ℚ) : List ℚ := p.map (c * ·)

/-- `scipy.special.legendre(n)`: the coefficients of the Legendre polynomial, constant term first, by the recursion
`(n + 2) L_{n+2} = (2 n + 3) x L_{n+1} - (n + 1) L_n`. -/
def legendre : Nat → List ℚ
  | 0 => [1]
  | 1 => [0, 1]
  | n + 2 => padd (pscale ((2 * n + 3) / (n + 2)) (0 :: legendre (n + 1))) (pscale (-(n + 1) / (n + 2)) (legendre n))

/-- The integral of the terms from `x^i` on. -/
def integFrom (a b : ℚ) : Nat → List ℚ → ℚ
  | _, [] => 0
  | i, c :: p => c * (b ^ (i + 1) - a ^ (i + 1)) / (i + 1) + integFrom a b (i + 1) p

/-- `quad(lambda mu: legendre(ell)(mu), mumin, mumax)[0]`. -/
def integ (p : List ℚ) (a b : ℚ) : ℚ := integFrom a b 0 p

/-- `compute_coefficient` (fkp.py 304-313). -/
def coefficient (ell : Nat) (mumin mumax : ℚ) : ℚ := 1 / (mumax - mumin) * integ (legendre ell) mumin mumax

/-- The measured multipoles: `power_ell` for some `ell`, and the column `k`. -/
structure Poles where
  power : List (Nat × List ℚ)
  k : List ℚ

/-- A bin of the result. -/
structure Bin where
  power : ℚ
  k : ℚ
  mu : ℚ
  deriving DecidableEq, Repr

/-- `list(range(0, max_ell+1, 2))` (fkp.py 316). -/
def ells (maxEll : Nat) : List Nat := (List.range (maxEll / 2 + 1)).map (2 * ·)

/-- The power of the bins of one wedge (fkp.py 328-331): the contribution of every multipole is added to zeros. -/
def wedge (p : Poles) (maxEll : Nat) (lo hi : ℚ) : List ℚ :=
  (ells maxEll).foldl (fun acc ell =>
    List.zipWith (· + ·) acc (((p.power.lookup ell).getD []).map fun v => coefficient ell lo hi * v))
    (List.replicate p.k.length 0)

/-- `to_pkmu` (fkp.py 282-338): for every wedge the bins in `k`. -/
def toPkmu (p : Poles) (muEdges : List ℚ) (maxEll : Nat) : Except Err (List (List Bin)) :=
  if (ells maxEll).any fun ell => (p.power.lookup ell).isNone then .error .valueError
  else .ok ((muEdges.zip muEdges.tail).map fun m =>
    List.zipWith (fun v k => ⟨v, k, 1 / 2 * (m.2 + m.1)⟩) (wedge p maxEll m.1 m.2) p.k)

end NBK.Pkmu
