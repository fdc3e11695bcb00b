import Mathlib.Data.Rat.Defs
import Mathlib.Algebra.Order.Ring.Rat
import Mathlib.Algebra.BigOperators.Group.List.Basic

/-!
# Model of `project_to_basis` (nbodykit/algorithms/fftpower.py 507-701)

A mode (a point of a slab) carries the square of its coordinate norm, the norm, the cosine to the line of sight, its Hermitian
weight (the properties of which are the subject of `Verif.Hermitian`) and the complex value of the field.  Numbers are rational.
Flat arrays are functions of the flat index.
-/
namespace NBK.Project

/-- A complex number. -/
structure Cx where
  re : ℚ
  im : ℚ
  deriving DecidableEq

/-- A point of a slab: `norm2`, the norm, `mu`, the flag `nonsingular`, the weight `hermitian_weights`, and `y3d`. -/
structure Mode where
  x2 : ℚ
  x : ℚ
  mu : ℚ
  nonsingular : Bool
  w : Nat
  y : Cx
  deriving DecidableEq

/-- `numpy.digitize(v, edges)` for increasing edges: `bins[i-1] <= v < bins[i]`. -/
def digitize (edges : List ℚ) (v : ℚ) : Nat := (edges.takeWhile fun e => decide (e ≤ v)).length

/-- `numpy.bincount(index, weights)`. -/
def bincount (l : List (Nat × ℚ)) (b : Nat) : ℚ := ((l.filter fun p => p.1 = b).map Prod.snd).sum

/-- Legendre polynomials (`scipy.special.legendre`), by Bonnet's recursion. -/
def legendre : Nat → ℚ → ℚ
  | 0, _ => 1
  | 1, m => m
  | n + 2, m => ((2 * n + 3) * m * legendre (n + 1) m - (n + 1) * legendre n m) / (n + 2)

/-- The term of a mode in `ysum` (fftpower.py 642-670), with the conjugate mode added on the nonsingular planes. -/
def poleTerm (hermitian : Bool) (ell : Nat) (m : Mode) : Cx :=
  let v : Cx := ⟨legendre ell m.mu * m.y.re, legendre ell m.mu * m.y.im⟩
  let v : Cx :=
    if hermitian && m.nonsingular then
      if ell % 2 = 1 then ⟨0, v.im * 2⟩ else ⟨v.re * 2, 0⟩
    else v
  ⟨v.re * (2 * ell + 1), v.im * (2 * ell + 1)⟩

/-- The flat index of a mode (`ravel_multi_index`, fftpower.py 618-629). -/
def multiIndex (x2edges muedges : List ℚ) (m : Mode) : Nat :=
  digitize x2edges m.x2 * (muedges.length + 1) + digitize muedges m.mu

/-- Sum of `f` in each bin over the slabs of a rank (fftpower.py 606-676) and over the ranks (679-682). -/
def binSum (x2edges muedges : List ℚ) (f : Mode → ℚ) (ranks : List (List (List Mode))) (b : Nat) : ℚ :=
  (ranks.map fun slabs => (slabs.map fun slab =>
    bincount (slab.map fun m => (multiIndex x2edges muedges m, f m)) b).sum).sum

/-- The entry `[i, j]` of a flat array reshaped to `(Nx+2, Nmu+2)`. -/
def entry (muedges : List ℚ) (a : Nat → ℚ) (i j : Nat) : ℚ := a (i * (muedges.length + 1) + j)

/-- `a[..., -2] += a[..., -1]`, then `a[1:-1, 1:-1]` (fftpower.py 684-691): the entry of the bins `i` of x and `j` of mu. -/
def visible (muedges : List ℚ) (a : Nat → ℚ) (i j : Nat) : ℚ :=
  if j + 1 = muedges.length - 1 then entry muedges a (i + 1) (j + 1) + entry muedges a (i + 1) (j + 2)
  else entry muedges a (i + 1) (j + 1)

/-- `_poles` and `ell_idx` (fftpower.py 585-588). -/
def allPoles (poles : List Nat) : List Nat :=
  if poles.contains 0 then poles.mergeSort (· ≤ ·) else 0 :: poles.mergeSort (· ≤ ·)

/-- One of the binned quantities of a bin. `none` is 0/0 (nan) or x/0. -/
def ratio (a n : ℚ) : Option ℚ := if n = 0 then none else some (a / n)

/-- The 2D result of a bin: `(xmean, mumean, Re y, Im y, N)` (fftpower.py 693-698); `legpoly[0]` is the monopole. -/
def result2d (hermitian : Bool) (x2edges muedges : List ℚ) (ranks : List (List (List Mode))) (poles : List Nat) (i j : Nat) :
    Option ℚ × Option ℚ × Option ℚ × Option ℚ × ℚ :=
  let S := fun f => visible muedges (binSum x2edges muedges f ranks) i j
  let ell := (allPoles poles).headD 0
  let N := S fun m => m.w
  (ratio (S fun m => m.x * m.w) N, ratio (S fun m => m.mu * m.w) N,
   ratio (S fun m => (poleTerm hermitian ell m).re) N, ratio (S fun m => (poleTerm hermitian ell m).im) N, N)

/-- The sum over the visible mu bins (`[sl, sl].sum(axis=-1)`). -/
def sumMu (muedges : List ℚ) (a : Nat → ℚ) (i : Nat) : ℚ :=
  ((List.range (muedges.length - 1)).map fun j => visible muedges a i j).sum

/-- The 1D multipole result of a bin (fftpower.py 701-706): mean x, the poles in the order requested (`poles[ell_idx]`), N. -/
def result1d (hermitian : Bool) (x2edges muedges : List ℚ) (ranks : List (List (List Mode))) (poles : List Nat) (i : Nat) :
    Option ℚ × List (Option ℚ × Option ℚ) × ℚ :=
  let S := fun f => sumMu muedges (binSum x2edges muedges f ranks) i
  let N := S fun m => m.w
  let ps := (allPoles poles).map fun ell =>
    (ratio (S fun m => (poleTerm hermitian ell m).re) N, ratio (S fun m => (poleTerm hermitian ell m).im) N)
  (ratio (S fun m => m.x * m.w) N, poles.map (fun ell => ps.getD ((allPoles poles).idxOf ell) (none, none)), N)

end NBK.Project
