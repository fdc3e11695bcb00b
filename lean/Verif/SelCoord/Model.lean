import Verif.Binned.Model

/-!
# Model of `BinnedStatistic.sel`, `rename_variable` and `squeeze()` (nbodykit/binned_statistic.py)

The keywords of `sel` are a list of distinct names with their values, in the order of the call. Coordinates and values are rational, so
that equality of floating point numbers is equality.
-/
namespace NBK.SelCoord
open NBK.Binned NBK.PySlice
variable {A : Type}

/-- The value of a keyword of `sel`: a number, a list of numbers, a slice, or anything else (a tuple or an array). -/
inductive CKey where
  | scalar (v : ℚ)
  | list (l : List ℚ)
  | slice (start stop step : Option ℚ)
  | other
  deriving DecidableEq

/-- `numpy.abs(index - val).argmin()` (binned_statistic.py 413): the first of the smallest; of an empty array a ValueError. -/
def nearest (cs : List ℚ) (v : ℚ) : Except Err Nat :=
  match (cs.map fun c => |c - v|).min? with
  | none => .error .valueError
  | some m => .ok ((cs.map fun c => |c - v|).idxOf m)

/-- `_get_index` (binned_statistic.py 406-423); the bound of an open slice is `None`. -/
def index (near : Bool) (cs : List ℚ) (v : Option ℚ) : Except Err Nat :=
  match near, v with
  | true, none => .error .typeError
  | true, some v => nearest cs v
  | false, none => .error .indexError
  | false, some v => getIndex cs v

/-- `self.coords[dim]` (binned_statistic.py 411). -/
def coordsOf (b : BS A) (dim : String) : Except Err (List ℚ) :=
  if dim ∈ b.dims then .ok (b.coords.getD (b.dims.idxOf dim) []) else .error .keyError

/-- The bins of one keyword (binned_statistic.py 640-654). The step of a slice is not used. -/
def keyIndices (b : BS A) (near : Bool) (dim : String) : CKey → Except Err (List Nat)
  | .list l => l.mapM fun v => (coordsOf b dim).bind fun cs => index near cs (some v)
  | .slice start stop _ => (coordsOf b dim).bind fun cs =>
      (index near cs start).bind fun i => (index near cs stop).bind fun j => .ok ((List.range j).drop i)
  | .other => .error .indexError
  | .scalar v => (coordsOf b dim).bind fun cs => (index near cs (some v)).bind fun i => .ok [i]

def CKey.isScalar : CKey → Bool
  | .scalar _ => true
  | _ => false

/-- The dimensions that are squeezed (binned_statistic.py 654). -/
def squeezedDims (indexers : List (String × CKey)) : List String := (indexers.filter fun p => p.2.isScalar).map Prod.fst

/-- `sel` (binned_statistic.py 597-662). -/
def sel (b : BS A) (near : Bool) (indexers : List (String × CKey)) : Except Err (BS A) :=
  (indexers.mapM fun p => (keyIndices b near p.1 p.2).bind fun l => .ok (p.1, Sel.ints (l.map Int.ofNat))).bind fun sels =>
    if (squeezedDims indexers).length = b.dims.length then .error .indexError
    else (take b [] sels).bind fun r => (squeezedDims indexers).foldlM squeeze r

/-- The dimension that `squeeze()` without a name removes (binned_statistic.py 780-786). -/
def inferDim (b : BS A) : Except Err String :=
  match (b.dims.zip b.shape).filter fun p => p.2 = 1 with
  | [p] => .ok p.1
  | _ => .error .valueError

/-- `squeeze()` (binned_statistic.py 745-805). -/
def squeezeOne (b : BS A) : Except Err (BS A) := (inferDim b).bind fun d => squeeze b d

/-- `rename_variable` (binned_statistic.py 568-595): the names of the data are changed in place; two fields of the same name are an error of
numpy. -/
def rename (b : BS A) (old new : String) : Except Err (BS A) :=
  if old ∉ b.data.map Col.name then .error .valueError
  else
    let names := (b.data.map Col.name).set ((b.data.map Col.name).idxOf old) new
    if names.Nodup then .ok { b with data := List.zipWith (fun c n => { c with name := n }) b.data names } else .error .valueError

end NBK.SelCoord
