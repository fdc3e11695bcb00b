import Mathlib.Order.WithBot

/-!
# Model of `get_data_bounds` and `split_size_3d` (nbodykit/utils.py 23-112)
-/
namespace NBK.Bounds

/-- One of the two count-down loops of `split_size_3d` (utils.py 100-105 and 106-111):
`while a > 1: if s % a == 0: s = s // a; break; a = a - 1`.  Returns the final `a` and `s`. -/
def countDown (s : Nat) : Nat → Nat × Nat
  | 0 => (0, s)
  | 1 => (1, s)
  | a + 2 => if s % (a + 2) = 0 then (a + 2, s / (a + 2)) else countDown s (a + 1)

/-- `split_size_3d(s)` (utils.py 84-112). `cbrt` and `sqrt` stand for the floating point expressions
`int(s ** 0.3333333)` and `int(s ** 0.5)`, which are left arbitrary. -/
def splitSize3d (cbrt sqrt : Nat → Nat) (s : Nat) : Nat × Nat × Nat :=
  let p := countDown s (cbrt s + 1)
  let q := countDown p.2 (sqrt p.2 + 1)
  (p.1, q.1, q.2)

/-- Exceptions: the minimum of an empty array (numpy ValueError). -/
inductive Err where
  | valueError
  deriving DecidableEq, Repr

/-- The rows of the slice `[i, i + c)` that are selected (utils.py 57-74); each row comes with its flag of
`selection` (`True` if no selection is given). -/
def chunk {β : Type} (rows : List (β × Bool)) (i c : Nat) : List β :=
  (((rows.drop i).take c).filter (·.2)).map (·.1)

/-- `d.min(axis=0)` for one component: fails on an empty array (utils.py 77). -/
def npMin {α : Type} [LinearOrder α] (xs : List α) : Except Err α :=
  match xs with
  | [] => .error .valueError
  | x :: xs => .ok (xs.foldl min x)

/-- `d.max(axis=0)` for one component (utils.py 78). -/
def npMax {α : Type} [LinearOrder α] (xs : List α) : Except Err α :=
  match xs with
  | [] => .error .valueError
  | x :: xs => .ok (xs.foldl max x)

/-- The chunk loop on one rank (utils.py 46-78) for a component: start values `+inf`, `-inf`; `starts` are the
values of `i`; nothing is done if the rank has no rows at all. -/
def rankLoop {α : Type} [LinearOrder α] (c : Nat) (rows : List (α × Bool)) :
    List Nat → WithTop α × WithBot α → Except Err (WithTop α × WithBot α)
  | [], acc => .ok acc
  | i :: is, acc =>
    if rows.length ≠ 0 then do
      let m ← npMin (chunk rows i c)
      let M ← npMax (chunk rows i c)
      rankLoop c rows is (min (m : WithTop α) acc.1, max (M : WithBot α) acc.2)
    else rankLoop c rows is acc

/-- `range(0, Nlocalmax, chunksize)` (utils.py 50-54). -/
def starts (n c : Nat) : List Nat := (List.range ((n + c - 1) / c)).map (· * c)

/-- `get_data_bounds(data, comm, selection)` for one component of the rows, on all ranks
(utils.py 23-82); all ranks return the same pair. `c` is the chunk size (`1024**2*8` in the code).
The components of a row are treated independently by `min(axis=0)`. -/
def getDataBounds {α : Type} [LinearOrder α] (c : Nat) (D : List (List (α × Bool))) :
    Except Err (WithTop α × WithBot α) := do
  let nmax := (D.map List.length).foldl max 0
  let rs ← D.mapM fun rows => rankLoop c rows (starts nmax c) (⊤, ⊥)
  pure ((rs.map (·.1)).foldl min ⊤, (rs.map (·.2)).foldl max ⊥)

end NBK.Bounds
