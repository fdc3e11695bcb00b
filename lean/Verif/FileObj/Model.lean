import Verif.FileIO.Model
import Mathlib.Data.List.Sort
import Mathlib.Data.Rat.Defs

/-!
# Model of file objects: opening, views of columns, dask arrays (nbodykit/io)

Files: `io/base.py` (`FileType`), `io/binary.py`, `io/tpm.py`, `io/fits.py`, `io/stack.py`.
The rows of an index are those of `FileIO.getitem` (C23, C25); here are the columns, the second axis and the constructors.
A scalar is opaque; in a binary file it is the list of its bytes.  A row read for a list of columns is a list with, for each
column, the scalars of its item in C order.  numpy views, `reshape`, `concatenate`, `glob`, `fitsio` and the slicing of
`dask.array.from_array` are modelled by their documented behaviour.
-/
namespace NBK.FileObj
open NBK.FileIO NBK.PySlice

/-! ## numpy data types -/

/-- A scalar type with its size in bytes. -/
structure Base where
  code : String
  width : Nat
  deriving DecidableEq, Repr

/-- A named field with its subarray shape; `()` for a scalar. -/
structure Field where
  name : String
  base : Base
  shape : List Nat
  deriving DecidableEq, Repr

/-- The number of scalars in an item. -/
def Field.scalars (f : Field) : Nat := f.shape.prod

/-- `dtype[col].itemsize` -/
def Field.bytes (f : Field) : Nat := f.base.width * f.scalars

/-- A `numpy.dtype`: named fields with the total item size, which is larger than the sum of the fields if the fields are
aligned, or a scalar type without fields. -/
inductive DType where
  | struct (fields : List Field) (itemsize : Nat)
  | plain (b : Base)
  deriving DecidableEq, Repr

/-- `dtype.itemsize` -/
def DType.itemsize : DType → Nat
  | .struct _ n => n
  | .plain b => b.width

/-- `dtype.names` -/
def DType.names : DType → Option (List String)
  | .struct fs _ => some (fs.map (·.name))
  | .plain _ => none

/-- The fields; `len(dtype)` is their number. -/
def DType.fields : DType → List Field
  | .struct fs _ => fs
  | .plain _ => []

/-- `dtype[col]` -/
def DType.get (d : DType) (c : String) : Except Err Field :=
  match d.fields.find? fun f => f.name = c with
  | some f => .ok f
  | none => .error .keyError

/-- `numpy.dtype([(name, type), ...])`: not aligned. -/
def packed (fs : List Field) : DType := .struct fs (fs.map Field.bytes).sum

/-! ## io/base.py -/

/-- `read(columns, start, stop, step)` -/
abbrev Read (σ : Type) := List String → Reader (List (List σ))

/-- The state of a `FileType` object (base.py 18-134). `own` stands for the attributes that `read` needs (path, offsets, list of
files); an object made with `object.__new__` has none. `base` is the memory of the owner. `sub` is the shape without the first
axis. -/
structure Obj (σ : Type) where
  own : Option (Read σ)
  base : Option (Read σ)
  dtype : DType
  size : Int
  cols : Option (List String)
  sub : List Nat

/-- `FileType.__init__` (base.py 16-18) of an object that can read. -/
def fileInit {σ : Type} (rd : Read σ) (d : DType) (size : Int) : Obj σ :=
  { own := some rd, base := none, dtype := d, size := size, cols := none, sub := [] }

/-- `columns` and `keys()` (base.py 43-59, 138-142); `list(None)` is a TypeError. -/
def columns {σ : Type} (o : Obj σ) : Except Err (List String) :=
  match o.cols with
  | some c => .ok c
  | none => match o.dtype.names with
    | some n => .ok n
    | none => .error .typeError

/-- `obj.base` of a new view (base.py 191-195, 333-336). -/
def ownerOf {σ : Type} (o : Obj σ) : Option (Read σ) :=
  match o.base with
  | some b => some b
  | none => o.own

/-- The object whose `read` is called (base.py 223-226). -/
def memown {σ : Type} (o : Obj σ) : Except Err (Read σ) :=
  match o.base with
  | some b => .ok b
  | none => match o.own with
    | some r => .ok r
    | none => .error .attributeError

/-- `file[list of names]` (base.py 168-202). numpy rejects a name that occurs twice. -/
def select {σ : Type} (o : Obj σ) (s : List String) : Except Err (Obj σ) :=
  if s = [] then .error .indexError else
  if o.dtype.names = none then .error .indexError else
  match columns o with
  | .error e => .error e
  | .ok keys =>
    if !(s.all fun c => keys.contains c) then .error .indexError else
    match s.mapM o.dtype.get with
    | .error e => .error e
    | .ok fs =>
      if !decide (s.Nodup) then .error .valueError else
      .ok { own := none, base := ownerOf o, dtype := packed fs, size := o.size, cols := none, sub := [] }

/-- The second axis of the shape (base.py 323-326). -/
def subShape (f : Field) (fs : List Field) : List Nat := if fs = [] then f.shape else [fs.length + 1]

/-- `asarray()` (base.py 270-338). -/
def asarray {σ : Type} (o : Obj σ) : Except Err (Obj σ) :=
  match o.dtype.fields with
  | [] => .error .valueError
  | f :: fs =>
    if fs ≠ [] ∧ (f :: fs).any (fun g => g.shape.length != 0) then .error .valueError else
    if (f :: fs).any (fun g => decide (g.base ≠ f.base)) then .error .valueError else
    match columns o with
    | .error e => .error e
    | .ok keys =>
      .ok { own := none, base := ownerOf o, dtype := .plain f.base, size := o.size, cols := some keys,
            sub := subShape f fs }

/-- `file[name]` (base.py 161-164, 197-199). -/
def column {σ : Type} (o : Obj σ) (c : String) : Except Err (Obj σ) :=
  match select o [c] with
  | .error e => .error e
  | .ok v => asarray v

/-- What an index returns: a structured array, or an array with one or two axes. -/
inductive Res (σ : Type) where
  | table (cols : List String) (rows : List (List (List σ)))
  | arr1 (l : List σ)
  | arr2 (m : Nat) (rows : List (List σ))
  deriving DecidableEq, Repr

/-- `reshape((-1, m))` -/
def reshape2 {σ : Type} (m : Nat) (l : List σ) : Except Err (Res σ) :=
  if m = 0 ∨ l.length % m ≠ 0 then .error .valueError else .ok (.arr2 m (items m l))

/-- The view of the rows as one array (base.py 253-260); only the second axis of the shape is used. -/
def viewRows {σ : Type} (o : Obj σ) (keys : List String) (rows : List (List (List σ))) : Except Err (Res σ) :=
  match o.dtype.fields with
  | _ :: _ => .ok (.table keys rows)
  | [] =>
    match o.sub with
    | [] => .ok (.arr1 rows.flatten.flatten)
    | m :: _ => reshape2 m rows.flatten.flatten

/-- An index of the second axis. -/
inductive Sub where
  | int (j : Int)
  | slice (s : Slice)
  deriving DecidableEq, Repr

/-- `toret[:,j]` (base.py 264-265). -/
def applySub {σ : Type} (j : Sub) : Res σ → Except Err (Res σ)
  | .arr2 m rows =>
    match j with
    | .int j =>
      let k := if j < 0 then j + m else j
      if 0 ≤ k ∧ k < m then .ok (.arr1 (rows.filterMap fun r => r[k.toNat]?)) else .error .indexError
    | .slice s =>
      match pySlice (List.range m) s with
      | none => .error .valueError
      | some js => .ok (.arr2 js.length (rows.map fun r => js.filterMap fun j => r[j]?))
  | _ => .error .indexError

/-- The rows of an index (base.py 228-250); a slice of a file of negative size is a ValueError of `slice.indices`. -/
def readRows {σ : Type} (rd : Reader (List (List σ))) (size : Int) (i : Index) : Except Err (List (List (List σ))) :=
  match i with
  | .slice s => if size < 0 then .error .valueError else FileIO.getitem rd size.toNat (.slice s)
  | i => FileIO.getitem rd size.toNat i

/-- `file[i]` and `file[i, j, ...]` for row indices (base.py 204-267); `js` are the entries of the tuple after the first. -/
def getitem {σ : Type} (o : Obj σ) (i : Index) (js : List Sub) : Except Err (Res σ) :=
  if js.length + 1 > o.sub.length + 1 then .error .indexError else
  if js.length ≥ 2 then .error .indexError else
  match memown o, columns o with
  | .error e, _ => .error e
  | _, .error e => .error e
  | .ok rd, .ok keys =>
    match readRows (rd keys) o.size i with
    | .error e => .error e
    | .ok rows =>
      match viewRows o keys rows with
      | .error e => .error e
      | .ok r =>
        match js with
        | [] => .ok r
        | j :: _ => applySub j r

/-! ## get_dask -/

/-- The chunks of an axis of length `n`: one empty chunk if `n = 0`. -/
def chunks (n bs : Nat) : List (Nat × Nat) :=
  if n = 0 then [(0, 0)] else
  (List.range ((n + bs - 1) / bs)).map fun (k : Nat) => (k * bs, min n ((k + 1) * bs))

/-- `get_dask(column, blocksize)` (base.py 353-382): the object and the chunk size handed to `da.from_array`. -/
def getDask {σ : Type} (dflt : Nat) (o : Obj σ) (c : String) (bs : Option Nat) : Except Err (Obj σ × Nat) :=
  match columns o with
  | .error e => .error e
  | .ok keys =>
    if !keys.contains c then .error .valueError else
    match column o c with
    | .error e => .error e
    | .ok v => .ok (v, bs.getD dflt)

/-- The slice of a chunk. -/
def chunkSlice (p : Nat × Nat) : Slice := ⟨some p.1, some p.2, none⟩

/-- Concatenation along the first axis, one axis. -/
def concat1 {σ : Type} : List (Res σ) → Except Err (List σ)
  | [] => .ok []
  | .arr1 l :: rest => match concat1 rest with
    | .ok r => .ok (l ++ r)
    | .error e => .error e
  | _ :: _ => .error .valueError

/-- Concatenation along the first axis, two axes. -/
def concat2 {σ : Type} : List (Res σ) → Except Err (List (List σ))
  | [] => .ok []
  | .arr2 _ l :: rest => match concat2 rest with
    | .ok r => .ok (l ++ r)
    | .error e => .error e
  | _ :: _ => .error .valueError

/-- Concatenation along the second axis of arrays with `n` rows. -/
def hstack {σ : Type} (n : Nat) : List (Res σ) → Except Err (List (List σ))
  | [] => .ok (List.replicate n [])
  | .arr2 _ l :: rest => match hstack n rest with
    | .ok r => if l.length = n then .ok (l.zipWith (· ++ ·) r) else .error .valueError
    | .error e => .error e
  | _ :: _ => .error .valueError

/-- One row of blocks of a dask array with two axes. -/
def blockRow {σ : Type} (o : Obj σ) (m bs : Nat) (p : Nat × Nat) : Except Err (Res σ) :=
  match (chunks m bs).mapM fun q => getitem o (.slice (chunkSlice p)) [.slice (chunkSlice q)] with
  | .error e => .error e
  | .ok parts =>
    match hstack (p.2 - p.1) parts with
    | .error e => .error e
    | .ok rows => .ok (.arr2 m rows)

/-- `compute()` of `da.from_array(obj, chunks=bs)`: each block is read with a tuple of slices, one for each axis. -/
def compute {σ : Type} (o : Obj σ) (bs : Nat) : Except Err (Res σ) :=
  if bs = 0 ∨ o.size < 0 then .error .valueError else
  match o.sub with
  | [] =>
    match (chunks o.size.toNat bs).mapM fun p => getitem o (.slice (chunkSlice p)) [] with
    | .error e => .error e
    | .ok parts => match concat1 parts with
      | .error e => .error e
      | .ok l => .ok (.arr1 l)
  | [m] =>
    match (chunks o.size.toNat bs).mapM (blockRow o m bs) with
    | .error e => .error e
    | .ok parts => match concat2 parts with
      | .error e => .error e
      | .ok l => .ok (.arr2 m l)
  | m :: _ :: rest =>
    getitem o (.slice (chunkSlice (0, bs))) (List.replicate (rest.length + 2) (.slice (chunkSlice (0, m))))

/-! ## io/binary.py and io/tpm.py -/

/-- The `size` argument of `BinaryFile`: missing, or a number (given or returned by a callable). -/
inductive SizeArg where
  | infer
  | value (q : Rat)
  deriving DecidableEq

/-- The `offsets` argument. -/
inductive OffArg where
  | infer
  | dict (l : List (String × Nat))
  | other
  deriving DecidableEq, Repr

/-- The size of the file (binary.py 75-81). -/
def binSize (bytesize header itemsize : Nat) : SizeArg → Except Err Int
  | .infer => FileIO.getsize bytesize header itemsize
  | .value q => if q.den ≠ 1 then .error .typeError else .ok q.num

/-- The byte offsets of the columns (binary.py 87-100). -/
def binOffsets (header : Nat) (size : Int) (fs : List Field) : OffArg → Except Err (List (String × Int))
  | .other => .error .typeError
  | .dict l =>
    if fs.all fun f => l.any fun p => p.1 == f.name then .ok (l.map fun p => (p.1, (p.2 : Int)))
    else .error .valueError
  | .infer => .ok ((List.range fs.length).zip fs |>.map fun p =>
      (p.2.name, (header : Int) + ((fs.take p.1).map fun g => size * (g.bytes : Int)).sum))

/-- `offsets[col]` -/
def offsetOf (offs : List (String × Int)) (c : String) : Except Err Int :=
  match offs.find? fun p => p.1 == c with
  | some p => .ok p.2
  | none => .error .keyError

/-- One column of `BinaryFile.read` (binary.py 149-154), the items cut into scalars; a negative offset is an OSError. -/
def binColumn {β : Type} (bytes : List β) (d : DType) (offs : List (String × Int)) (start stop step : Int) (c : String) :
    Except Err (List (List (List β))) :=
  match d.get c, offsetOf offs c with
  | .error e, _ => .error e
  | _, .error e => .error e
  | .ok f, .ok off =>
    if off < 0 then .error .osError else
    match binRead bytes off.toNat f.bytes start stop step with
    | .error e => .error e
    | .ok l => .ok (l.map (items f.base.width))

/-- Rows from columns. -/
def transpose {σ : Type} (n : Nat) (cs : List (List (List σ))) : List (List (List σ)) :=
  (List.range n).map fun i => cs.map fun c => c.getD i []

/-- `BinaryFile.read` (binary.py 120-156). -/
def binReadCols {β : Type} (bytes : List β) (d : DType) (offs : List (String × Int)) : Read (List β) :=
  fun cols start stop step =>
    if !decide (cols.Nodup) then .error .valueError else
    if step = 0 then .error .valueError else
    if getSliceSize start stop step < 0 then .error .valueError else
    match cols.mapM (binColumn bytes d offs start stop step) with
    | .error e => .error e
    | .ok cs => .ok (transpose (getSliceSize start stop step).toNat cs)

/-- `BinaryFile.__init__` (binary.py 69-100). -/
def openBinary {β : Type} (bytes : List β) (d : DType) (offsets : OffArg) (header : Nat) (size : SizeArg) :
    Except Err (Obj (List β)) :=
  match binSize bytes.length header d.itemsize size with
  | .error e => .error e
  | .ok n =>
    if offsets = .other then .error .typeError else
    match d.names with
    | none => .error .typeError
    | some _ =>
      match binOffsets header n d.fields offsets with
      | .error e => .error e
      | .ok offs => .ok (fileInit (binReadCols bytes d offs) d n)

/-- The type of a TPM file (tpm.py 33). -/
def tpmType (b : Base) : DType := packed [⟨"Position", b, [3]⟩, ⟨"Velocity", b, [3]⟩, ⟨"ID", ⟨"u8", 8⟩, []⟩]

/-- `TPMBinaryFile.__init__` (tpm.py 28-34). -/
def openTPM {β : Type} (bytes : List β) (precision : String) : Except Err (Obj (List β)) :=
  if precision = "f4" then openBinary bytes (tpmType ⟨"f4", 4⟩) .infer 28 .infer
  else if precision = "f8" then openBinary bytes (tpmType ⟨"f8", 8⟩) .infer 28 .infer
  else .error .valueError

/-! ## io/fits.py -/

/-- An HDU as seen through `fitsio`. -/
structure Hdu (σ : Type) where
  name : String
  hasData : Bool
  image : Bool
  nrows : Nat
  fields : List Field
  read : Read σ

/-- The `ext` argument; negative numbers are not modelled. -/
inductive Ext where
  | none
  | num (n : Nat)
  | str (s : String)
  deriving DecidableEq, Repr

/-- `ff[ext]` -/
def hduAt {σ : Type} (ff : List (Hdu σ)) : Ext → Option (Hdu σ)
  | .none => none
  | .num n => ff[n]?
  | .str s => ff.find? fun h => h.name == s

/-- The extension to read (fits.py 34-46). -/
def findExt {σ : Type} (ff : List (Hdu σ)) : Ext → Except Err Ext
  | .none =>
    match ff.findIdx? fun h => h.hasData with
    | some i => .ok (.num i)
    | none => .error .valueError
  | .str s => if ff.any fun h => h.name == s then .ok (.str s) else .error .valueError
  | .num n => if n ≥ ff.length then .error .valueError else .ok (.num n)

/-- `raise ValueError("FITS extension %d ..." % ext)` (fits.py 50): a string cannot be formatted with `%d`. -/
def badExt : Ext → Err
  | .str _ => .typeError
  | _ => .valueError

/-- `FITSFile.__init__` (fits.py 24-58): the object with `attrs['ext']`. -/
def openFits {σ : Type} (ff : List (Hdu σ)) (ext : Ext) : Except Err (Obj σ × Ext) :=
  match findExt ff ext with
  | .error e => .error e
  | .ok x =>
    match hduAt ff x with
    | none => .error .osError
    | some h =>
      if !h.hasData || h.image then .error (badExt x) else
      .ok (fileInit h.read (packed h.fields) h.nrows, x)

/-! ## io/stack.py -/

/-- The `path` argument of `FileStack`: a list of names, a string with the names that match it, or anything else. -/
inductive PathArg where
  | list (l : List String)
  | str (found : List String)
  | other
  deriving DecidableEq, Repr

/-- The list of files (stack.py 42-50). -/
def stackNames (abspath : String → String) : PathArg → Except Err (List String)
  | .list l => .ok l
  | .str found =>
    match (found.insertionSort (· ≤ ·)).map abspath with
    | [] => .error .fileNotFound
    | l => .ok l
  | .other => .error .valueError

/-- `len(f)` -/
def lenOf {σ : Type} (f : Obj σ) : Except Err Nat := if f.size < 0 then .error .valueError else .ok f.size.toNat

/-- `f.read` -/
def readOf {σ : Type} (f : Obj σ) (cols : List String) : Reader (List (List σ)) :=
  match f.own with
  | some rd => rd cols
  | none => fun _ _ _ => .error .attributeError

/-- `FileStack.read` (stack.py 76-108). -/
def stackReadCols {σ : Type} (files : List (Obj σ)) : Read σ :=
  fun cols => stackRead (files.map fun f => (f.size.toNat, readOf f cols))

/-- `FileStack.__init__` (stack.py 32-56). `isFile` tells whether `filetype` is a subclass of `FileType`; `opener` opens one file. -/
def openStack {σ : Type} (abspath : String → String) (isFile : Bool) (opener : String → Except Err (Obj σ)) (path : PathArg) :
    Except Err (Obj σ) :=
  if !isFile then .error .valueError else
  match stackNames abspath path with
  | .error e => .error e
  | .ok names =>
    match names.mapM opener with
    | .error e => .error e
    | .ok files =>
      match files.mapM lenOf with
      | .error e => .error e
      | .ok sizes =>
        match files with
        | [] => .error .indexError
        | f :: _ => .ok (fileInit (stackReadCols files) f.dtype ((sizes.sum : Nat) : Int))

end NBK.FileObj
