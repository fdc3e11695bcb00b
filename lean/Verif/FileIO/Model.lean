import Verif.PySlice.Basic

/-!
# Model of file access: slices, index lists, file stacks, binary files (nbodykit/io)

Files: `io/base.py` (`FileType.__getitem__`, `find_slice_chunks`), `io/tools.py`, `io/stack.py`, `io/binary.py`.
A row (or the item of one column) is an opaque value.  Only the row axis is modelled (no `asarray` views, no second axis).
-/
namespace NBK.FileIO
open NBK.PySlice

inductive Err where
  | valueError | indexError | osError | nameError
  | typeError | keyError | attributeError | fileNotFound
  deriving DecidableEq, Repr

/-- A reader `read(columns, start, stop, step)` for fixed columns. -/
abbrev Reader (ρ : Type) := Int → Int → Int → Except Err (List ρ)

/-! ## io/tools.py -/

/-- `get_slice_size` (tools.py 3-23): floor `divmod`, plus one if there is a remainder. -/
def getSliceSize (start stop step : Int) : Int :=
  let N := Int.fdiv (stop - start) step
  let remainder := Int.fmod (stop - start) step
  if remainder ≠ 0 then N + 1 else N

/-- `cumsizes[k]` with `cumsizes = insert(cumsum(sizes), 0, 0)` (tools.py 46, 76). -/
def cum (sizes : List Nat) (k : Nat) : Nat := (sizes.take k).sum

/-- `global_to_local_slice` (tools.py 25-52). -/
def globalToLocal (sizes : List Nat) (start stop : Int) (fnum : Nat) : Int × Int :=
  (max (start - cum sizes fnum) 0, min (stop - cum sizes fnum) (sizes.getD fnum 0))

/-- `numpy.searchsorted(a, x)` (left): the number of leading entries smaller than `x` of the sorted array `a`. -/
def searchLeft (a : List Nat) (x : Int) : Nat := (a.takeWhile fun v : Nat => (v : Int) < x).length

/-- `get_file_slice` (tools.py 54-81): `range(fnums[0], fnums[1] + 1)`. -/
def getFileSlice (sizes : List Nat) (start stop : Int) : List Nat :=
  let a := (List.range sizes.length).map fun k => cum sizes (k + 1)
  let f0 := searchLeft a start
  let f1 := searchLeft a stop
  (List.range' f0 (f1 + 1 - f0))

/-! ## io/stack.py -/

/-- `x[::step]` -/
def everyStep {ρ : Type} (l : List ρ) (step : Int) : Except Err (List ρ) :=
  match pySlice l ⟨none, none, some step⟩ with
  | some r => .ok r
  | none => .error .valueError

/-- The part of one file (stack.py 95-102). -/
def readPart {ρ : Type} (files : List (Nat × Reader ρ)) (sizes : List Nat) (start stop : Int) (f : Nat) :
    Except Err (List ρ) :=
  match files[f]? with
  | none => .error .indexError
  | some (_, rd) =>
    let sl := globalToLocal sizes start stop f
    rd sl.1 sl.2 1

/-- `FileStack.read` (stack.py 76-108). If no file is touched, the debug message uses the unbound `sl`; a file number past the
last file is an IndexError. -/
def stackRead {ρ : Type} (files : List (Nat × Reader ρ)) (start stop step : Int) : Except Err (List ρ) :=
  let sizes := files.map Prod.fst
  let fs := getFileSlice sizes start stop
  if fs = [] then .error .nameError else do
  let parts ← fs.mapM (readPart files sizes start stop)
  everyStep parts.flatten step

/-! ## io/base.py -/

/-- `itertools.groupby` with lengths: runs of equal values. -/
def runs : List Bool → List (Bool × Nat)
  | [] => []
  | b :: bs =>
    match runs bs with
    | [] => [(b, 1)]
    | (c, n) :: rest => if b = c then (c, n + 1) :: rest else (b, 1) :: (c, n) :: rest

/-- The chunks of a boolean index (base.py 410-421): runs with cumulative ends; a chunk for each run of True. -/
def maskChunksFrom (low : Int) : List (Bool × Nat) → List (Int × Int × Int)
  | [] => []
  | (v, n) :: rest =>
    if v then (low, low + n, 1) :: maskChunksFrom (low + n) rest else maskChunksFrom (low + n) rest

/-- `find_slice_chunks` for a boolean index; `zip(*[])` cannot be unpacked for an empty index (ValueError). -/
def maskChunks (m : List Bool) : Except Err (List (Int × Int × Int)) :=
  if m = [] then .error .valueError else .ok (maskChunksFrom 0 (runs m))

/-- `groupby(enumerate(index), lambda x: x[0]-x[1])`: runs of consecutive integers, position `i` on (base.py 424-427). -/
def intGroups (i : Int) : List Int → List (List Int)
  | [] => []
  | x :: xs =>
    match intGroups (i + 1) xs with
    | [] => [[x]]
    | g :: gs =>
      match g with
      | [] => [x] :: gs      -- not reached: groups are non-empty
      | y :: _ => if i - x = (i + 1) - y then (x :: g) :: gs else [x] :: g :: gs

/-- `yield (xx[0], xx[-1]+1, 1)` (base.py 429-430). -/
def intChunks (l : List Int) : List (Int × Int × Int) :=
  (intGroups 0 l).filterMap fun g =>
    match g.head?, g.getLast? with
    | some a, some b => some (a, b + 1, 1)
    | _, _ => none

/-- `numpy.concatenate([memown.read(keys, *sl) for sl in chunks])`; no chunks is a ValueError (base.py 236). -/
def readChunks {ρ : Type} (rd : Reader ρ) (chunks : List (Int × Int × Int)) : Except Err (List ρ) := do
  let parts ← chunks.mapM fun c => rd c.1 c.2.1 c.2.2
  if parts = [] then .error .valueError else pure parts.flatten

/-- What can be used as row index. `ints64` tells whether the integer array has dtype `int64`, the only one for which
`s.dtype == numpy.integer` holds; Python lists of ints become `int64`. -/
inductive Index where
  | int (i : Int)
  | slice (s : Slice)
  | emptyList
  | mask (m : List Bool)
  | ints (int64 : Bool) (l : List Int)

/-- `FileType.__getitem__` for row indices (base.py 188-266). An empty Python list is taken as an empty list of column
names (IndexError, 166-170). -/
def getitem {ρ : Type} (rd : Reader ρ) (size : Nat) : Index → Except Err (List ρ)
  | .emptyList => .error .indexError
  | .mask m => do
    let ch ← maskChunks m
    readChunks rd ch
  | .ints int64 l =>
    let l := if int64 then l.map (fun x : Int => if x < 0 then x + size else x) else l
    readChunks rd (intChunks l)
  | .int i =>
    let s := if i < 0 then i + size else i
    rd s (s + 1) 1
  | .slice s =>
    match indices size s with
    | none => .error .valueError
    | some (a, b, c) => rd a b c

/-! ## io/binary.py -/

/-- `getsize` (binary.py 7-40). -/
def getsize (bytesize headerSize rowsize : Nat) : Except Err Int :=
  let d : Int := (bytesize : Int) - headerSize
  if Int.fmod d rowsize ≠ 0 then .error .valueError else .ok (Int.fdiv d rowsize)

/-- Cut bytes into items of `w` bytes; an incomplete item at the end is dropped. -/
def items {β : Type} (w : Nat) (b : List β) : List (List β) :=
  if _h : 0 < w ∧ w ≤ b.length then b.take w :: items w (b.drop w) else []
termination_by b.length
decreasing_by simp; omega

/-- `numpy.fromfile(ff, count, dtype)` at byte `pos`: at most `count` items, all up to the end if `count < 0`. -/
def fromfile {β : Type} (bytes : List β) (pos w : Nat) (count : Int) : List (List β) :=
  let r := items w (bytes.drop pos)
  if count < 0 then r else r.take count.toNat

/-- `toret[col][:] = value` with numpy broadcasting: equal lengths, or a value of length one. -/
def assignCol {ρ : Type} (n : Nat) (v : List ρ) : Except Err (List ρ) :=
  if v.length = n then .ok v
  else match v with
    | [x] => .ok (List.replicate n x)
    | _ => .error .valueError

/-- `_default_byte_offset` of column `k` (binary.py 102-118); `ws` are the item sizes. -/
def byteOffset (header size : Nat) (ws : List Nat) (k : Nat) : Nat := header + ((ws.take k).map (size * ·)).sum

/-- `BinaryFile.read` for one column at byte offset `off` with item size `w` (binary.py 120-156).
`numpy.empty` of a negative size is a ValueError; seeking before the start of the file is an OSError. -/
def binRead {β : Type} (bytes : List β) (off w : Nat) : Reader (List β) := fun start stop step =>
  if step = 0 then .error .valueError else
  let n := getSliceSize start stop step
  if n < 0 then .error .valueError else
  let pos : Int := off + start * w
  if pos < 0 then .error .osError else do
  let v ← everyStep (fromfile bytes pos.toNat w (stop - start)) step
  assignCol n.toNat v

end NBK.FileIO
