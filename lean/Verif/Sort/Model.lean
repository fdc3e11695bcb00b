/-!
# Model of `CatalogSource.sort` (nbodykit/base/catalog.py 1100-1164, `_sort_data` 1219-1287)

A number is stored as sign and magnitude; for floats the magnitude is the bit pattern without the sign bit, which is
monotone in the absolute value (IEEE 754, no NaN).  Column names are strings, a row is a function of the
column name.  `mpsort.sort` is a parameter, constrained by its contract (see `Props`).
-/
namespace NBK.Sort

inductive Err where
  | valueError
  deriving DecidableEq, Repr

/-- Sign and magnitude of a number. -/
structure Num where
  neg : Bool
  mag : Nat
  deriving DecidableEq, Repr

/-- dtype of a column: `f4`, `f8`, an integer type, or something else (bool, string, float16, ...). -/
inductive DType where
  | int | f4 | f8 | other
  deriving DecidableEq, Repr

/-- `int64` multiplication by -1 with wrap-around. -/
def neg64 (k : Int) : Int := if k = -(2 ^ 63) then k else -k

/-- The integer read from the bytes of a float with `w` bits (two's complement). -/
def bitsKey (w : Nat) (x : Num) : Int := if x.neg then (x.mag : Int) - 2 ^ (w - 1) else x.mag

/-- The sort key of one pass (catalog.py 1266-1282). Integer columns are used as they are: `reverse` is not looked
at. -/
def sortKey (dt : DType) (reverse : Bool) (x : Num) : Except Err Int :=
  match dt with
  | .f4 => .ok (if reverse then neg64 (bitsKey 32 x) else bitsKey 32 x)
  | .f8 => .ok (if reverse then neg64 (bitsKey 64 x) else bitsKey 64 x)
  | .int => .ok (if x.neg then -(x.mag : Int) else x.mag)
  | .other => .error .valueError

/-- A row: the values of all columns. -/
abbrev Row := String → Num

/-- `mpsort.sort(data, orderby=..)`, on the global array. -/
abbrev Sorter := (Row → Int) → List Row → List Row

/-- In-place sort: the global array is replaced, the local sizes stay (catalog.py 1285). -/
def sortPass (srt : Sorter) (key : Row → Int) (D : List (List Row)) : List (List Row) :=
  let S := srt key D.flatten
  (D.map List.length).mapIdx fun r n => (S.drop (((D.map List.length).take r).sum)).take n

/-- One pass per key, last key first (catalog.py 1263-1285). -/
def sortLoop (srt : Sorter) (dt : String → DType) (reverse : Bool) : List String → List (List Row) →
    Except Err (List (List Row))
  | [], D => .ok D
  | k :: ks, D =>
    if dt k = .other then .error .valueError
    else sortLoop srt dt reverse ks
      (sortPass srt (fun x => match sortKey (dt k) reverse (x k) with | .ok v => v | .error _ => 0) D)

/-- `cat.sort(keys, reverse, usecols)` (catalog.py 1124-1164): the checks, the passes, and the columns of the result.
The result is the rows on all ranks and the list of columns kept. -/
def sort (srt : Sorter) (columns : List String) (dt : String → DType) (D : List (List Row)) (keys : List String)
    (reverse : Bool) (usecols : Option (List String)) : Except Err (List (List Row) × List String) :=
  if ¬ keys.Nodup then .error .valueError
  else if keys.any (fun k => !columns.contains k) then .error .valueError
  else if (usecols.getD []).any (fun k => !columns.contains k) then .error .valueError
  else match sortLoop srt dt reverse keys.reverse D with
    | .error e => .error e
    | .ok D' => .ok (D', usecols.getD columns)

end NBK.Sort
