import Verif.Fof.Labels
import Mathlib.Data.Rat.Defs
import Mathlib.Algebra.Order.Ring.Rat
import Mathlib.Data.Rat.Floor

/-!
# Model of `count`, `centerofmass` and the columns of `fof_catalog` (nbodykit/algorithms/fof.py 428-533, 647-727)

One coordinate at a time; positions are rational numbers. A particle is a pair of its label and its value; `D` are the particles
of all ranks. Infinity (the identity of `fmin`) is `none`; the result of `0/0` (a label without particles) is `none`.
-/
namespace NBK.Fof

/-- The labels of all ranks. -/
def labelsOf {β : Type} (D : List (List (Nat × β))) : List (List Nat) := D.map fun d => d.map Prod.fst

/-- `comm.Allreduce(IN_PLACE, x, op)` for arrays of length `n`. -/
def allreduce {β : Type} (n : Nat) (op : β → β → β) (xs : List (List β)) : List (Option β) :=
  (List.range n).map fun v => reduce op (xs.filterMap (·[v]?))

/-- `count(label, comm)` (fof.py 702-727), also inside `centerofmass` (674-677). -/
def count (label : List (List Nat)) : Except Err (List Nat) := do
  let n ← nhalo0 label
  pure ((List.range n).map fun v => (label.map fun l => l.count v).sum)

/-- `numpy.fmin` with infinity. -/
def fminInf : Option ℚ → Option ℚ → Option ℚ
  | some a, some b => some (min a b)
  | some a, none => some a
  | none, b => b

/-- `numpy.fmax` with minus infinity. -/
def fmaxInf : Option ℚ → Option ℚ → Option ℚ
  | some a, some b => some (max a b)
  | some a, none => some a
  | none, b => b

/-- Bring a separation into `[-L/2, L/2)` by one period (fof.py 684-687). -/
def wrap (L d : ℚ) : ℚ :=
  let d := if d < -(L * (1 / 2)) then d + L else d
  if d ≥ L * (1 / 2) then d - L else d

/-- `x % L` for floats, `L > 0`. -/
def ratMod (x L : ℚ) : ℚ := x - L * (⌊x / L⌋ : ℤ)

/-- Sums over the labels, on all ranks together (fof.py 690-692). -/
def labelSums (argsort : List Nat → List Nat) (n : Nat) (D : List (List (Nat × ℚ))) : Except Err (List (Option ℚ)) := do
  let s ← D.mapM fun d => equivClass argsort (· + ·) true (some 0) (some n) (d.map Prod.fst) (d.map Prod.snd)
  pure (allreduce n (· + ·) s)

/-- The smallest position of each label (fof.py 680-682). -/
def labelMins (argsort : List Nat → List Nat) (n : Nat) (D : List (List (Nat × ℚ))) : Except Err (List (Option (Option ℚ))) := do
  let s ← D.mapM fun d => equivClass argsort fminInf true (some none) (some n) (d.map Prod.fst) (d.map fun p => some p.2)
  pure (allreduce n fminInf s)

/-- `dpos /= N` and, with a box, `(posmin + dpos) % boxsize` (fof.py 693-700). -/
def meanOf (N : List Nat) (tot : List (Option ℚ)) (v : Nat) : Option ℚ :=
  match N[v]?, tot[v]? with
  | some (c + 1), some (some s) => some (s / ((c + 1 : Nat) : ℚ))
  | _, _ => none

/-- `posmin[label]`; infinity cannot occur for the label of a particle (then `0`). -/
def refOf (mins : List (Option (Option ℚ))) (v : Nat) : ℚ := ((mins.getD v none).getD none).getD 0

/-- `centerofmass(label, pos, boxsize, comm)` (fof.py 647-700). -/
def centerOfMass (argsort : List Nat → List Nat) (boxsize : Option ℚ) (D : List (List (Nat × ℚ))) :
    Except Err (List (Option ℚ)) := do
  let N ← count (labelsOf D)
  match boxsize with
  | none =>
    let tot ← labelSums argsort N.length D
    pure ((List.range N.length).map (meanOf N tot))
  | some L =>
    let mins ← labelMins argsort N.length D
    let tot ← labelSums argsort N.length (D.map fun d => d.map fun p => (p.1, wrap L (p.2 - refOf mins p.1)))
    pure ((List.range N.length).map fun v => (meanOf N tot v).map fun m => ratMod (refOf mins v + m) L)

/-- `label1 = label * (density >= dmax[label])` (fof.py 504-508): the particles which are not a peak get label 0.
A particle is `(label, density)`. -/
def peakLabels (argsort : List Nat → List Nat) (D : List (List (Nat × ℚ))) : Except Err (List (List Nat)) := do
  let N ← count (labelsOf D)
  let s ← D.mapM fun d => equivClass argsort fmaxInf true (some none) (some N.length) (d.map Prod.fst) (d.map fun p => some p.2)
  let dmax := allreduce N.length fmaxInf s
  pure (D.map fun d => d.map fun p => match (dmax.getD p.1 none).getD none with
    | none => p.1
    | some m => if p.2 ≥ m then p.1 else 0)

end NBK.Fof
