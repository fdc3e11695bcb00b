/-!
# Model of `transform.ConcatenateSources` (nbodykit/transform.py 29-87)

A source on one rank: communicator, size and columns (`none`: the column does not exist).
Not modelled: the attrs (taken from the first source), dask chunking, trailing dimensions and dtypes of the columns.
-/
namespace NBK.Concat

inductive Err where
  | valueError | indexError | assertionError
  deriving DecidableEq, Repr

/-- A catalog on one rank. `columns` is the list of its column names. -/
structure Src (α : Type) where
  comm : Nat
  size : Nat
  columns : List String
  col : String → List α

/-- The keys of the `data` dict: insertion order, no duplicates. -/
def keys : List String → List String
  | [] => []
  | c :: cs => c :: (keys cs).filter (· ≠ c)

/-- The columns to concatenate (transform.py 59-65). -/
def chosen {α : Type} (s0 : Src α) : Option (List String) → List String
  | none => s0.columns
  | some cs => if cs = [] then s0.columns else cs

/-- `ConcatenateSources(*sources, columns=columns)` on one rank (transform.py 57-87). -/
def concatSources {α : Type} (sources : List (Src α)) (columns : Option (List String)) : Except Err (Src α) :=
  match sources with
  | [] => .error .indexError
  | s0 :: _ =>
    let columns := chosen s0 columns
    if ¬ (sources.all fun s => s.comm = s0.comm) then .error .valueError
    else if sources.any (fun s => ¬ (columns.all fun c => s.columns.contains c)) then .error .valueError
    else
      let size := (sources.map Src.size).sum
      let data : String → List α := fun c => (sources.map fun s => s.col c).flatten
      -- `_from_columns` asserts the length of every column
      if (keys columns).any (fun c => (data c).length != size) then .error .assertionError
      else .ok ⟨s0.comm, size, keys columns, data⟩

end NBK.Concat
