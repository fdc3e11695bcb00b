import Mathlib.Data.Rat.Floor
import Mathlib.Algebra.Order.Ring.Rat
import Mathlib.Algebra.BigOperators.Group.List.Basic

/-!
# Model of `RedshiftHistogram` (nbodykit/algorithms/zhist.py)

All ranks at once; an object is its redshift and its weight (1 without a weight column, line 115).  Floats are exact.
The cosmology (`comoving_distance`) and the roots in Scott's rule are parameters.
-/
namespace NBK.Zhist

/-- Python exceptions raised by the modelled code. -/
inductive Err where
  | nameError
  /-- `max()` of an empty array -/
  | valueError
  deriving DecidableEq, Repr

/-- `numpy.searchsorted(edges, x, "right")` for sorted edges: the number of edges `<= x` (zhist.py 121). -/
def searchRight (edges : List ℚ) (x : ℚ) : Nat := edges.countP fun e => decide (e ≤ x)

/-- `numpy.bincount(dig, weights, minlength)` (zhist.py 122): item `k` is the sum of the weights of the entries equal
to `k`; the length is the largest entry plus one, at least `minlength`. -/
def bincount (dig : List Nat) (weights : List ℚ) (minlength : Nat) : List ℚ :=
  (List.range (dig.foldl (fun m d => max m (d + 1)) minlength)).map fun k =>
    ((dig.zip weights).map fun p => if p.1 = k then p.2 else 0).sum

/-- `l[1:-1]`. -/
def inner (l : List ℚ) : List ℚ := (l.drop 1).dropLast

/-- The local histogram (zhist.py 121-122). -/
def localHist (edges : List ℚ) (objs : List (ℚ × ℚ)) : List ℚ :=
  inner (bincount (objs.map fun o => searchRight edges o.1) (objs.map Prod.snd) (edges.length + 1))

/-- `comm.allreduce(N)` of arrays: the elementwise sum (zhist.py 125). -/
def allsum : List (List ℚ) → List ℚ
  | [] => []
  | [a] => a
  | a :: b :: l => List.zipWith (· + ·) a (allsum (b :: l))

/-- `N` in `RedshiftHistogram.run` on all ranks (zhist.py 106-125). -/
def hist (edges : List ℚ) (D : List (List (ℚ × ℚ))) : List ℚ := allsum (D.map (localHist edges))

/-- `dV` (zhist.py 131-133); `r` is the comoving distance. -/
def volumes (π fsky : ℚ) (r : ℚ → ℚ) (edges : List ℚ) : List ℚ :=
  List.zipWith (fun hi lo => 4 / 3 * π * (r hi ^ 3 - r lo ^ 3) * fsky) edges.tail edges.dropLast

/-- `nbar` (zhist.py 139); 0-division is NaN or infinite (`none`). -/
def nbar (π fsky : ℚ) (r : ℚ → ℚ) (edges : List ℚ) (D : List (List (ℚ × ℚ))) : List (Option ℚ) :=
  List.zipWith (fun n v => if v = 0 then none else some (n / v)) (hist edges D) (volumes π fsky r edges)

/-- `data.max()` and `data.min()` of one rank (zhist.py 63-64, 247-248): an error for an empty array. -/
def localMinMax : List ℚ → Except Err (ℚ × ℚ)
  | [] => .error .valueError
  | z :: zs => .ok (zs.foldl min z, zs.foldl max z)

/-- The edges of `scotts_bin_width` (zhist.py 237-253) for a bin width `dx` (computed by Scott's rule from the data,
zero if all values are equal); an empty rank raises. `ceil(0/0)` is NaN and `max(1, NaN)` is 1. -/
def scottEdges (dx : ℚ) (D : List (List ℚ)) : Except Err (List ℚ) := do
  let mm ← D.mapM localMinMax
  let minval := (mm.map Prod.fst).tail.foldl min ((mm.map Prod.fst).headD 0)
  let maxval := (mm.map Prod.snd).tail.foldl max ((mm.map Prod.snd).headD 0)
  let nb : Int := if dx = 0 then 1 else max 1 ⌈(maxval - minval) / dx⌉
  pure ((List.range (nb.toNat + 1)).map fun (k : Nat) => minval + dx * k)

/-- The `bins` argument. -/
inductive Bins where
  | none
  | int (n : Nat)
  | seq (edges : List ℚ)

/-- `__init__` (zhist.py 52-67): the edges; `linspace` is not defined in the module, so that an integer always ends
in a NameError (line 65). -/
def initEdges (dx : ℚ) (bins : Bins) (D : List (List (ℚ × ℚ))) : Except Err (List ℚ) :=
  match bins with
  | .none => scottEdges dx (D.map fun l => l.map Prod.fst)
  | .int _ => do
    let _ ← D.mapM fun l => localMinMax (l.map Prod.fst)
    .error .nameError
  | .seq e => .ok e

end NBK.Zhist
