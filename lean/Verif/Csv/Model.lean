import Verif.FileIO.Model

/-!
# Model of CSV files (nbodykit/io/csv.py)

The file is a list of bytes, `nl` the newline byte.  `dask.bytes.read_block` is modelled by its documented rule: both ends of a
block are moved to just behind the next delimiter.  `pandas.read_csv` is modelled by `parse`: it skips the first `skiprows`
physical lines, then drops empty lines if asked to, then keeps `nrows` lines; a row is a line.  An empty block parses to no rows.
Lines made of blanks only, quoted newlines and `\r\n` are not modelled.
-/
namespace NBK.Csv
variable {β : Type} [DecidableEq β]

/-- `seek_delimiter` of dask from position `p`: behind the first delimiter at or after `p`, the end of the file if there is
none, and unchanged at position 0. -/
def seekDelim (nl : β) (bytes : List β) (p : Nat) : Nat :=
  if p = 0 then 0 else
  match (bytes.drop p).findIdx? (· == nl) with
  | some i => p + i + 1
  | none => max p bytes.length

/-- `read_block(f, offset, blocksize, delimiter)` of dask, used in csv.py 54 and 124. -/
def readBlock (nl : β) (bytes : List β) (offset blocksize : Nat) : List β :=
  (bytes.take (seekDelim nl bytes (offset + blocksize))).drop (seekDelim nl bytes offset)

/-- `range(0, size, blocksize)` (csv.py 105). -/
def offsets (size blocksize : Nat) : List Nat :=
  (List.range ((size + blocksize - 1) / blocksize)).map fun (k : Nat) => k * blocksize

/-- All blocks of the file (csv.py 115-124). -/
def blocks (nl : β) (bytes : List β) (blocksize : Nat) : List (List β) :=
  (offsets bytes.length blocksize).map fun o => readBlock nl bytes o blocksize

/-- The physical lines; a last line without newline counts. -/
def lines (nl : β) : List β → List (List β)
  | [] => []
  | c :: cs =>
    if c = nl then [] :: lines nl cs
    else match lines nl cs with
      | [] => [[c]]
      | l :: ls => (c :: l) :: ls

/-- A partition: the bytes with the `skiprows` and `nrows` handed to `read_csv` (`CSVPartition`, csv.py 9-61). -/
structure Part (β : Type) where
  block : List β
  skip : Nat
  nrows : Option Int
  deriving DecidableEq, Repr

/-- `lines` without the skipped and, if asked for, the empty ones. -/
def dataLines (nl : β) (skipBlank : Bool) (block : List β) (skip : Nat) : List (List β) :=
  ((lines nl block).drop skip).filter fun l => !skipBlank || l != []

/-- `pandas.read_csv` (see the header of this file). -/
def parse (nl : β) (skipBlank : Bool) (p : Part β) : List (List β) :=
  let rows := dataLines nl skipBlank p.block p.skip
  match p.nrows with
  | none => rows
  | some n => rows.take n.toNat

/-- `block.count(delimiter+delimiter)`: non-overlapping occurrences, from the left. -/
def countDD (nl : β) : List β → Nat
  | [] => 0
  | [_] => 0
  | a :: b :: rest => if a = nl ∧ b = nl then 1 + countDD nl rest else countDD nl (b :: rest)

/-- The size of a block before `nrows` and the end of the file are looked at (csv.py 128-138). -/
def blockCount (nl : β) (skipBlank first : Bool) (skip : Nat) (block : List β) : Int :=
  (block.count nl : Int)
    - (if skipBlank then (countDD nl block : Int) + (if first && (block.head? == some nl) then 1 else 0) else 0)
    - skip

/-- The loop of `make_partitions` (csv.py 113-152); `first` is `i == 0`. -/
def partitionLoop (nl : β) (skipBlank : Bool) (first : Bool) (skip : Nat) (nrows : Option Int) :
    List (List β) → List (Part β × Int)
  | [] => []
  | b :: bs =>
    let size := blockCount nl skipBlank first skip b
    let fin := if bs = [] ∧ b.getLast? ≠ some nl then size + 1 else size
    match nrows with
    | none => (⟨b, skip, none⟩, fin) :: partitionLoop nl skipBlank false 0 none bs
    | some n =>
      if n > 0 then
        if n < size then [(⟨b, skip, some n⟩, n)]
        else (⟨b, skip, some n⟩, fin) :: partitionLoop nl skipBlank false 0 (some (n - size)) bs
      else (⟨b, skip, some n⟩, fin) :: partitionLoop nl skipBlank false 0 (some n) bs

/-- `make_partitions` (csv.py 63-156): partitions with their sizes. -/
def makePartitions (nl : β) (bytes : List β) (blocksize : Nat) (skipBlank : Bool) (skip : Nat) (nrows : Option Int) :
    List (Part β × Int) :=
  partitionLoop nl skipBlank true skip nrows (blocks nl bytes blocksize)

/-- The size of the file (csv.py 325). -/
def csvSize (ps : List (Part β × Int)) : Int := (ps.map Prod.snd).sum

/-- `CSVFile.read` (csv.py 329-368): as for a stack of files, each partition being sliced by pandas. Negative
sizes (too many rows skipped) are taken as 0. -/
def csvRead (nl : β) (skipBlank : Bool) (ps : List (Part β × Int)) (start stop step : Int) :
    Except FileIO.Err (List (List β)) :=
  FileIO.stackRead (ps.map fun p => (p.2.toNat, fun a b _ =>
    match PySlice.pySlice (parse nl skipBlank p.1) ⟨some a, some b, none⟩ with
    | some r => .ok r
    | none => .error .valueError)) start stop step

end NBK.Csv
