import Mathlib.Data.Rat.Defs
import Mathlib.Algebra.Order.Ring.Rat
import Mathlib.Algebra.BigOperators.Group.List.Basic

/-!
# Model of `bin_ndarray` (nbodykit/binned_statistic.py 3-58)

An array of shape `s` is the list of its elements in C order. Values are rational, infinite or NaN (the sign of zero is not kept).
-/
namespace NBK.Binned

/-- The exceptions of interest. -/
inductive Err where
  | valueError | indexError | zeroDivision | typeError | keyError
  /-- an indexing expression outside the model -/
  | notModelled
  deriving DecidableEq, Repr

/-- A floating point value. -/
inductive Val where
  | fin (q : ℚ)
  | inf (neg : Bool)
  | nan
  deriving DecidableEq

namespace Val

/-- `numpy.isfinite`. -/
def isFinite : Val → Bool
  | fin _ => true
  | _ => false

def add : Val → Val → Val
  | fin a, fin b => fin (a + b)
  | nan, _ => nan
  | _, nan => nan
  | inf a, inf b => if a = b then inf a else nan
  | inf a, fin _ => inf a
  | fin _, inf b => inf b

def mul : Val → Val → Val
  | fin a, fin b => fin (a * b)
  | nan, _ => nan
  | _, nan => nan
  | inf a, inf b => inf (a != b)
  | inf a, fin b => if b = 0 then nan else inf (a != decide (b < 0))
  | fin a, inf b => if a = 0 then nan else inf (b != decide (a < 0))

def div : Val → Val → Val
  | fin a, fin b => if b = 0 then (if a = 0 then nan else inf (decide (a < 0))) else fin (a / b)
  | nan, _ => nan
  | _, nan => nan
  | inf _, inf _ => nan
  | inf a, fin b => inf (a != decide (b < 0))
  | fin _, inf _ => fin 0

/-- The number, if it is one. -/
def rat? : Val → Option ℚ
  | fin q => some q
  | _ => none

end Val

/-- `numpy.sum` of a row of values. -/
def npsum (l : List Val) : Val := l.foldl Val.add (.fin 0)

/-- `numpy.nansum`. -/
def nansum (l : List Val) : Val := npsum (l.filter fun v => v ≠ .nan)

/-- `numpy.nanmean`: NaN if no value is left. -/
def nanmean (l : List Val) : Val := (nansum l).div (.fin ((l.filter fun v => v ≠ .nan).length : Nat))

/-- A numpy reduction along the axis `ax`. -/
def reduceAxis (op : List Val → Val) (shape : List Nat) (ax : Nat) (a : List Val) : List Val :=
  let pre := (shape.take ax).prod
  let f := shape.getD ax 1
  let post := (shape.drop (ax + 1)).prod
  (List.range (pre * post)).map fun o => op ((List.range f).map fun j => a.getD (((o / post) * f + j) * post + o % post) .nan)

/-- `numpy.take(a, idx, axis=ax)`, also the data of a basic slice. -/
def takeAxis {α : Type} (d : α) (shape : List Nat) (ax : Nat) (idx : List Nat) (a : List α) : List α :=
  let pre := (shape.take ax).prod
  let n := shape.getD ax 1
  let post := (shape.drop (ax + 1)).prod
  (List.range (pre * idx.length * post)).map fun o =>
    a.getD ((o / post / idx.length * n + idx.getD (o / post % idx.length) 0) * post + o % post) d

/-- One pass of the loop of `bin_ndarray` (binned_statistic.py 51-57); the state is the current shape, the array and the weights. -/
def binStep (op : List Val → Val) (st : List Nat × List Val × Option (List Val)) (i : Nat) : List Nat × List Val × Option (List Val) :=
  let ax := st.1.length - (i + 1)
  match st.2.2 with
  | none => (st.1.eraseIdx ax, reduceAxis op st.1 ax st.2.1, none)
  | some w =>
    let a := reduceAxis op st.1 ax (List.zipWith Val.mul st.2.1 w)
    let w' := reduceAxis npsum st.1 ax w
    (st.1.eraseIdx ax, List.zipWith Val.div a w', some w')

/-- `bin_ndarray` (binned_statistic.py 3-58). The comparison of the shape, a tuple, with the new shape, which `reindex` passes as a list,
never holds. `numpy.mod` by zero is zero with a warning, the floor division after it raises. -/
def binNdarray (op : List Val → Val) (old new : List Nat) (a : List Val) (w : Option (List Val)) : Except Err (List Val) :=
  if old.length ≠ new.length then .error .valueError
  else if (List.zip old new).any (fun p => p.2 ≠ 0 && p.1 % p.2 ≠ 0) then .error .valueError
  else if new.any (fun d => d = 0) then .error .zeroDivision
  else if (match w with | none => false | some w => w.length ≠ a.length) then .error .valueError
  else
    let flattened := (List.zip new old).flatMap fun p => [p.1, p.2 / p.1]
    .ok ((List.range new.length).foldl (binStep op) (flattened, a, w)).2.1

end NBK.Binned
