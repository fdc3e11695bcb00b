import Verif.Pairs.Model
import Mathlib.Data.List.Sort

/-!
# Model of `KDDensity` (nbodykit/algorithms/kdtree.py)

Positions and distances are exact; the tree of scipy is the list of the squared distances in order, and the decomposition of pmesh the one of the `Pairs`
topic. `none` is an infinite distance. The density is kept squared, because the distances are.
-/
namespace NBK.Kd
open NBK.Pairs

/-- The `k`-th smallest of a list (`tree.query(x, k=[8])` with `k = 8`; the point itself is in the tree, kdtree.py 80-81). -/
def kth (k : Nat) (l : List ℚ) : Option ℚ := (l.insertionSort (· ≤ ·))[k - 1]?

/-- `numpy.fmin` where `none` is infinite. -/
def fmin : Option ℚ → Option ℚ → Option ℚ
  | none, b => b
  | a, none => a
  | some a, some b => some (min a b)

/-- The position in units of the box, wrapped (kdtree.py 76-77). -/
def scaled (L : ℚ) (p : Pos) : Pos := ⟨wrap 1 (p.x / L), wrap 1 (p.y / L), wrap 1 (p.z / L)⟩

/-- The unit box of the tree. -/
def unit : Pos := ⟨1, 1, 1⟩

/-- The cube of `attrs['meansep']` (kdtree.py 45). -/
def meansep3 (N : Nat) (L : ℚ) : ℚ := N / (L * L * L)

/-- The squared distance of a received particle on rank `d` (kdtree.py 68-82). -/
def localD (L : ℚ) (lay : Layout Pos Pos) (D : List (List Pos)) (p : Pos) (d : Nat) : Option ℚ :=
  kth 8 ((exchange2 lay D d).map fun q => sep2 unit (scaled L p) (scaled L q))

/-- The squared distance gathered back for a particle: the smallest over the ranks it was sent to (kdtree.py 85). -/
def gathered (L : ℚ) (lay : Layout Pos Pos) (D : List (List Pos)) (p : Pos) : Option ℚ :=
  ((lay.ghosts p).map (localD L lay D p)).foldl fmin none

/-- The square of `1 / (d³ V)`; `none` is infinite (kdtree.py 86). -/
def density2 (L : ℚ) : Option ℚ → Option ℚ
  | none => some 0
  | some d => if d = 0 then none else some (1 / (d ^ 3 * (L * L * L) ^ 2))

/-- `KDDensity.run` on all ranks (kdtree.py 51-86) for a cubic box of side `L`, `np` domains and `smoothing = margin * meansep`. -/
def run (L : ℚ) (np : Nat × Nat × Nat) (smoothing : ℚ) (D : List (List Pos)) : List (List (Option ℚ)) :=
  D.map fun l => l.map fun p => density2 L (gathered L (gridLayout ⟨L, L, L⟩ np smoothing) D p)

end NBK.Kd
