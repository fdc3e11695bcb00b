import Mathlib.Algebra.Order.Floor.Ring
import Mathlib.Data.List.Sort
import Mathlib.Algebra.Order.Field.Basic

/-!
# Model of `_find_unique_edges` (nbodykit/algorithms/fftpower.py 732-769)

Numbers are from an ordered field with a floor, the root is a parameter. The squares of the coordinate of the modes are given rank by rank.
-/
namespace NBK.Uedges

variable {K : Type} [Field K] [LinearOrder K] [FloorRing K]

inductive Err
  /-- `width[-1]` or `fx[-1]` of an empty array -/
  | indexError
deriving DecidableEq, Repr

/-- `numpy.int64(fx2 / binning + 0.5)` for numbers that are not negative (fftpower.py 746). -/
def key (binning x : K) : Int := ⌊x / binning + 1 / 2⌋

/-- The first of the values with each key. -/
def firsts (binning : K) (xs : List K) : List K :=
  xs.foldl (fun acc a => if acc.any (fun b => key binning b = key binning a) then acc else acc ++ [a]) []

/-- `find_unique_local` (fftpower.py 743-749): `numpy.unique` sorts the keys and gives the first index of each. -/
def uniqueLocal (binning : K) (xs : List K) : List K :=
  (firsts binning xs).insertionSort fun a b => key binning a ≤ key binning b

/-- The centers: every rank makes its values unique and takes those below `xmax`, then all are gathered and made unique again (fftpower.py 751-759). -/
def centers (root : K → K) (x0 xmax : K) (ranks : List (List K)) : List K :=
  let local' := ranks.map fun fx2 => ((uniqueLocal ((x0 * (1 / 20)) ^ 2) fx2).map root).filter fun f => decide (f < xmax)
  uniqueLocal (x0 * (1 / 100000)) local'.flatten

/-- `edges[1:] -= width * 0.5` for the values after `prev`. -/
def midpoints (prev : K) : List K → List K
  | [] => []
  | f :: l => (f - (f - prev) * (1 / 2)) :: midpoints f l

/-- The edge after the last value: `fx[-1] + width[-1] * 0.5`, with at least two values `a`, `b`. -/
def lastEdge (a b : K) : List K → K
  | [] => b + (b - a) * (1 / 2)
  | c :: l => lastEdge b c l

/-- The edges (fftpower.py 761-766): the first is 0, the others half way between the centers. -/
def edgesOf : List K → Except Err (List K)
  | a :: b :: l => .ok (0 :: midpoints a (b :: l) ++ [lastEdge a b l])
  | _ => .error .indexError

/-- `_find_unique_edges`. -/
def findUniqueEdges (root : K → K) (x0 xmax : K) (ranks : List (List K)) : Except Err (List K × List K) :=
  let fx := centers root x0 xmax ranks
  (edgesOf fx).map fun e => (e, fx)

end NBK.Uedges
