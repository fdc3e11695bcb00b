import Mathlib.Analysis.SpecialFunctions.Sqrt
import Mathlib.Algebra.BigOperators.Fin

/-!
# Model of the functions that make columns (nbodykit/transform.py: `StackColumns` 5-28, `VectorProjection` 489-515)

Columns are lists; dask chunks and dtypes are not modelled.  Real numbers in place of floats.
-/
namespace NBK.Columns

/-- Python exceptions raised by the modelled code. -/
inductive Err where
  | valueError | indexError
  deriving DecidableEq, Repr

variable {α : Type}

/-- The common length of columns for `da.broadcast_arrays` (transform.py 26): columns of one item are repeated. -/
def commonLen (cols : List (List α)) : Except Err Nat :=
  cols.foldlM (fun n c => if c.length = n then .ok n else if n = 1 then .ok c.length else if c.length = 1 then .ok n
    else .error .valueError) 1

/-- A column repeated to the length `n` (transform.py 26). -/
def stretch (n : Nat) (c : List α) : List α :=
  if c.length = n then c else (List.replicate n c).flatten

/-- `.T` (transform.py 27) of an array with `k` rows of `n` items: `n` rows, of the items with the same number. -/
def transpose (n : Nat) (rows : List (List α)) : List (List α) := (List.range n).map fun i => rows.filterMap fun r => r[i]?

/-- `StackColumns(*cols)` for columns with one dimension (transform.py 5-27). -/
def stackColumns (cols : List (List α)) : Except Err (List (List α)) := do
  let n ← commonLen cols
  pure (transpose n (cols.map (stretch n)))

/-! ### Projections -/

/-- Broadcasting of two shapes, written from the last dimension to the first (numpy, used by transform.py 512-513). -/
def broadcastRev : List Nat → List Nat → Except Err (List Nat)
  | [], t => .ok t
  | s, [] => .ok s
  | a :: s, b :: t =>
    if a = b ∨ b = 1 then do pure (a :: (← broadcastRev s t))
    else if a = 1 then do pure (b :: (← broadcastRev s t))
    else .error .valueError

/-- The shape of the sum or product of two arrays (numpy, used by transform.py 512-513). -/
def broadcast (s t : List Nat) : Except Err (List Nat) := do
  pure (← broadcastRev s.reverse t.reverse).reverse

/-- The shape of `VectorProjection(vector, direction)` (transform.py 512-513) for a vector array of the shape `s` and a direction
with `D` components. -/
def projShape (s : List Nat) (D : Nat) : Except Err (List Nat) := do
  let prod ← broadcast s [D]
  match prod.dropLast with
  | [] => .error .indexError
  | n :: rest => broadcast (n :: 1 :: rest) [1, D]

noncomputable section

/-- `direction / (direction ** 2).sum() ** 0.5` (transform.py 511). -/
def unit {D : Nat} (d : Fin D → ℝ) : Fin D → ℝ := fun i => d i / Real.sqrt (∑ j, d j ^ 2)

/-- `VectorProjection(vector, direction)` for an array of vectors (transform.py 510-515). -/
def vectorProjection {D : Nat} (vectors : List (Fin D → ℝ)) (d : Fin D → ℝ) : List (Fin D → ℝ) :=
  vectors.map fun v i => (∑ j, v j * unit d j) * unit d i

end

end NBK.Columns
