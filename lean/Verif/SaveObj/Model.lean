import Verif.Attrs.Model

/-!
# Catalogs saved to files and loaded again (C139)

`CatalogSource.save` (nbodykit/base/catalog.py 562-711), `BigFile` (nbodykit/io/bigfile.py 15-125) and `BigFileCatalog` (source/catalog/file.py 15-68, 110-127).

Columns are evaluated when they are written, row by row, from memory or from a file: dask arrays are lazy. A rank writes its rows chunk by chunk; the chunks of all ranks are written in any
order (`Chunk`). The library bigfile is modelled by what it does: `create` replaces a block and leaves it empty, a write beyond the end of the block's file fills the gap with zeros, a read
beyond the end is an error, and the blocks of a `Dataset` have one size. A block is one physical file (the code uses several beyond 32 million rows). Attributes are those of `Attrs`. Names are
lists of their parts between slashes; patterns of `exclude` have no special characters. Types of columns are not modelled, nor a path with glob characters.
-/
namespace NBK.SaveObj
open NBK.Attrs (Codec Dict Val Stored)

/-- `a/b/c`; the root is empty. -/
abbrev Name := List String

inductive Err where
  /-- a column which is not there (catalog.py 598, `self[col]`) -/
  | keyError
  /-- the lengths of `columns` and `datasets` (catalog.py 607-608), or an attribute that cannot be stored (catalog.py 684-685) -/
  | valueError
  /-- no such file -/
  | notFound
  /-- rows of the file that are not there -/
  | lost
  /-- blocks of different sizes -/
  | inconsistent
  /-- JSON that cannot be read -/
  | json
  /-- no block at all: outside the model -/
  | leftOut
  deriving DecidableEq, Repr

variable {V : Type}

/-- A block of a bigfile: the promised number of rows, those which are in the file, and the attributes. -/
structure Block (V : Type) where
  size : Nat
  data : List V
  attrs : Dict Stored

abbrev File (V : Type) := List (Name × Block V)

/-- The disk: paths to files. -/
abbrev FS (V : Type) := String → Option (File V)

/-- `create`: a block of that name is replaced. -/
def setBlock (f : File V) (n : Name) (b : Block V) : File V :=
  if (f.lookup n).isSome then f.map fun p => if p.1 = n then (n, b) else p else f ++ [(n, b)]

def FS.block (fs : FS V) (path : String) (n : Name) : Option (Block V) := (fs path).bind fun f => f.lookup n

def FS.put (fs : FS V) (path : String) (n : Name) (b : Block V) : FS V := Function.update fs path (some (setBlock ((fs path).getD []) n b))

/-- A column on all ranks: rows in memory, rows of a file (for each rank the first row and their number), or made of other columns row by row. -/
inductive Expr (V : Type) where
  | mem (rows : List (List V))
  | disk (path : String) (block : Name) (lo len : List Nat)
  | map (f : V → V) (a : Expr V)
  | zip (f : V → V → V) (a b : Expr V)

/-- `len(array)` on a rank. -/
def Expr.len : Expr V → Nat → Nat
  | .mem rows, r => (rows.getD r []).length
  | .disk _ _ _ len, r => len.getD r 0
  | .map _ a, r => a.len r
  | .zip _ a b, r => min (a.len r) (b.len r)

/-- Row `i` of rank `r` when it is computed now (io/bigfile.py 112-125). -/
def Expr.row (fs : FS V) : Expr V → Nat → Nat → Option V
  | .mem rows, r, i => (rows.getD r [])[i]?
  | .disk path block lo len, r, i =>
    if i < len.getD r 0 then (fs.block path block).bind fun b => if lo.getD r 0 + i < b.size then b.data[lo.getD r 0 + i]? else none else none
  | .map f a, r, i => (a.row fs r i).map f
  | .zip f a b, r, i => (a.row fs r i).bind fun x => (b.row fs r i).map fun y => f x y

/-- A column: `is_default` and its attributes. -/
structure Col (V : Type) where
  expr : Expr V
  dflt : Bool
  attrs : Dict Stored

/-- A catalog on `sizes.length` ranks. -/
structure Cat (V : Type) where
  sizes : List Nat
  cols : List (Name × Col V)
  attrs : Dict Val

/-- `save(output, columns, dataset, datasets, header)`. -/
structure Args where
  columns : Option (List Name) := none
  dataset : Name := []
  datasets : Option (List Name) := none
  header : Option Name := some ["Header"]

/-- The columns with the blocks they go to (catalog.py 597-608). -/
def chosen (cat : Cat V) (a : Args) : Except Err (List (Name × Col V)) :=
  match (a.columns.getD (cat.cols.map Prod.fst)).mapM fun c => (cat.cols.lookup c).map fun x => (c, x) with
  | none => .error .keyError
  | some l =>
    let l := l.filter fun p => !p.2.dflt
    match a.datasets with
    | none => .ok (l.map fun p => (a.dataset ++ p.1, p.2))
    | some d => if d.length ≠ l.length then .error .valueError else .ok (d.zip (l.map Prod.snd))

/-- `comm.allreduce(len(array))` and the offset of a rank (catalog.py 639-640). -/
def total (P : Nat) (e : Expr V) : Nat := ((List.range P).map e.len).sum
def offset (e : Expr V) (r : Nat) : Nat := ((List.range r).map e.len).sum

/-- All blocks are created first (catalog.py 635-656). -/
def createAll (P : Nat) (path : String) (fs : FS V) (l : List (Name × Col V)) : FS V :=
  l.foldl (fun fs p => fs.put path p.1 ⟨total P p.2.expr, [], p.2.attrs⟩) fs

/-- The attributes in the header: those before one that fails are there (catalog.py 676-685). -/
def storeAll (c : Codec) (old : Dict Stored) : Dict Val → Dict Stored × Bool
  | [] => (old, true)
  | p :: l =>
    match Attrs.storeCat c p.2 with
    | .ok s => storeAll c (Attrs.put old p.1 s) l
    | .error _ => (old, false)

/-- The header (catalog.py 670-685): opened if it is there, created without rows if not. -/
def putHeader (c : Codec) (path : String) (attrs : Dict Val) (fs : FS V) : Option Name → FS V × Bool
  | none => (fs, true)
  | some h =>
    let b := (fs.block path h).getD ⟨0, [], []⟩
    let r := storeAll c b.attrs attrs
    (fs.put path h { b with attrs := r.1 }, r.2)

/-- Rows `first … first + num` of the column on a rank, computed and written together. -/
structure Chunk where
  rank : Nat
  first : Nat
  num : Nat
  deriving DecidableEq, Repr

/-- Writing into a file at a place: a gap is filled with zeros. -/
def writeAt (zero : V) (d : List V) (o : Nat) (vs : List V) : List V :=
  if vs = [] then d else (d ++ List.replicate (o - d.length) zero).take o ++ vs ++ d.drop (o + vs.length)

/-- A chunk is computed, and written to the block (catalog.py 617-627). -/
def writeChunk (zero : V) (path : String) (n : Name) (e : Expr V) (fs : FS V) (k : Chunk) : Option (FS V) :=
  ((List.range k.num).mapM fun i => e.row fs k.rank (k.first + i)).bind fun vs =>
    (fs.block path n).map fun b => fs.put path n { b with data := writeAt zero b.data (offset e k.rank + k.first) vs }

/-- Chunks of columns, one after the other, until one fails. -/
def writeAll (zero : V) (path : String) : FS V → List ((Name × Col V) × Chunk) → FS V × Bool
  | fs, [] => (fs, true)
  | fs, (p, k) :: l =>
    match writeChunk zero path p.1 p.2.expr fs k with
    | some fs' => writeAll zero path fs' l
    | none => (fs, false)

/-- `save` without the writing: the disk then, and what is to be written. -/
def begin (c : Codec) (P : Nat) (fs : FS V) (cat : Cat V) (path : String) (a : Args) : FS V × Except Err (List (Name × Col V)) :=
  match chosen cat a with
  | .error e => (fs, .error e)
  | .ok l =>
    let fs := if (fs path).isSome then fs else Function.update fs path (some [])
    let r := putHeader c path cat.attrs (createAll P path fs l) a.header
    (r.1, if r.2 then .ok l else .error .valueError)

/-- `save(...)` (catalog.py 562-711) with the chunks in the order in which they are written. With `compute=False` the writing is done later, by `writeAll`. -/
def save (c : Codec) (zero : V) (fs : FS V) (cat : Cat V) (path : String) (a : Args) (order : List (Name × Col V) → List ((Name × Col V) × Chunk)) : FS V × Option Err :=
  let r := begin c cat.sizes.length fs cat path a
  match r.2 with
  | .error e => (r.1, some e)
  | .ok l =>
    let w := writeAll zero path r.1 (order l)
    (w.1, if w.2 then none else some .lost)

/-! ## Loading -/

/-- The name below a dataset. -/
def below : Name → Name → Option Name
  | [], n => some n
  | _ :: _, [] => none
  | d :: ds, x :: n => if d = x then below ds n else none

/-- `BigFileCatalog(path, exclude=, header=, dataset=, attrs=)`. -/
structure LoadArgs where
  exclude : Option (List Name) := none
  header : Option (List Name) := none
  dataset : Name := []
  attrs : Dict Val := []

/-- `_find_headers` (io/bigfile.py 93-108). -/
def headers (f : File V) (a : LoadArgs) : List Name :=
  ((a.header.getD [["Header"], ["header"], ["."]]).foldl (fun r h => if (f.lookup h).isSome then (if h ∈ r then r else r ++ [h]) else r) []) ++ [a.dataset ++ ["."]]

/-- The columns (io/bigfile.py 60-72). -/
def columnsOf (f : File V) (a : LoadArgs) : List (Name × Block V) :=
  (f.filterMap fun p => (below a.dataset p.1).map fun n => (n, p.2)).filter fun p => p.1 ∉ a.exclude.getD (headers f a)

/-- `BigFile.attrs` (io/bigfile.py 75-88). -/
def readAttrs (c : Codec) (f : File V) (hs : List Name) : Except Attrs.Err (Dict Val) :=
  hs.foldlM (fun d h => Attrs.readInto (Attrs.readFile c) d (((f.lookup h).map Block.attrs).getD [])) []

/-- The first row and the number of rows of a rank (source/catalog/file.py 52-63). -/
def first (n P r : Nat) : Nat := r * n / P
def number (n P r : Nat) : Nat := first n P (r + 1) - first n P r

/-- The default columns (`Selection`, `Weight`, `Index`, `Value`; base/catalog.py 1166-1215): the value of the row with a global number. -/
abbrev Defaults (V : Type) := List (Name × (Nat → V))

/-- Default columns of a catalog, where no other column has the name. -/
def withDefaults (D : Defaults V) (sizes : List Nat) (cols : List (Name × Col V)) : List (Name × Col V) :=
  cols ++ (D.filter fun p => (cols.lookup p.1).isNone).map fun p =>
    (p.1, ⟨.mem ((List.range sizes.length).map fun r => (List.range (sizes.getD r 0)).map fun i => p.2 ((sizes.take r).sum + i)), true, []⟩)

/-- `BigFileCatalog(path, ...)` on `P` ranks. The attributes of columns are not read. -/
def load (c : Codec) (D : Defaults V) (P : Nat) (fs : FS V) (path : String) (a : LoadArgs) : Except Err (Cat V) :=
  match fs path with
  | none => .error .notFound
  | some f =>
    match columnsOf f a with
    | [] => .error .leftOut
    | p :: l =>
      if l.any fun q => q.2.size ≠ p.2.size then .error .inconsistent
      else
        match readAttrs c f (headers f a) with
        | .error _ => .error .json
        | .ok d =>
          let sizes := (List.range P).map (number p.2.size P)
          .ok ⟨sizes, withDefaults D sizes ((p :: l).map fun q =>
              (q.1, ⟨.disk path (a.dataset ++ q.1) ((List.range P).map (first p.2.size P)) sizes, false, []⟩)), Attrs.update (Attrs.update [] d) a.attrs⟩

/-! ## What a program sees -/

/-- The rows of a column on all ranks, one rank after the other. -/
def values (fs : FS V) (P : Nat) (e : Expr V) : Option (List V) :=
  ((List.range P).mapM fun r => (List.range (e.len r)).mapM fun i => e.row fs r i).map List.flatten

/-- `cat[c].compute()` on all ranks, one after the other. -/
def rows (fs : FS V) (cat : Cat V) (c : Name) : Option (List V) := (cat.cols.lookup c).bind fun x => values fs cat.sizes.length x.expr

/-- The columns of a catalog have its sizes (base/catalog.py 955-974). -/
def Cat.Sized (cat : Cat V) : Prop := ∀ p ∈ cat.cols, ∀ r, p.2.expr.len r = cat.sizes.getD r 0

/-- The blocks that a column reads. -/
def Expr.reads : Expr V → List (String × Name)
  | .mem _ => []
  | .disk p b _ _ => [(p, b)]
  | .map _ a => a.reads
  | .zip _ a b => a.reads ++ b.reads

end NBK.SaveObj
