import Verif.CatObj.Model
import Verif.PySlice.Basic

/-!
# Model of programs with catalogs of files (nbodykit/source/catalog/file.py 15-230, nbodykit/io/stack.py 29-67)

The objects are those of `CatObj`, with one more class. A file is what a `FileStack` shows: columns of the same length, and attributes. The columns are arrays of the world, which are
read when a catalog computes a column, so that files can be written between (with the same length). A program runs on one of `P` ranks; what the ranks have together is said in the theorems.
Chunks are not modelled, nor negative sizes: `end` before `start` is a size of zero here.
-/
set_option linter.unusedSimpArgs false
namespace NBK.FileCatObj
open NBK.CatObj

/-- What `FileStack(filetype, path, ...)` shows: the columns and where their rows are, the number of rows, and the attributes of the first of the files (stack.py 60-67), if it has some. -/
structure File (V : Type) where
  cols : List (String × Nat)
  n : Nat
  attrs : Option (List (String × V))

/-- What a catalog of a file carries besides the columns (file.py 51-63): `_source.size`, `start`, `end`, `_lstart`, `_lend`. -/
structure Range where
  n : Nat
  start : Int
  stop : Int
  lstart : Int
  lend : Int
  deriving DecidableEq, Repr

/-- The rows `[_lstart:_lend]` of the file, as numpy and dask count (file.py 124-125). -/
def Range.cut (d : Range) : List Nat := (NBK.PySlice.pySlice (List.range d.n) ⟨some d.lstart, some d.lend, none⟩).getD []

variable {ρ V : Type}

def fileName : String := "FileCatalog"

/-- The class of the catalogs of one file (file.py 110-127, 167-199): the columns of the file are hard-coded. -/
def fileCls (cols : List (String × Nat)) (dflt : List (String × ρ)) : Cls ρ Range :=
  ⟨fileName, cols.map fun p => (p.1, fun d => .rows (.buf p.2) d.cut), dflt⟩

/-- `d.update(e)`. -/
def update (d e : List (String × V)) : List (String × V) := e.foldl (fun l p => put p.1 p.2 l) d

/-- The range of rank `r` of `P`: `a + r * n // P` (file.py 52-53, 94-95). -/
def bound (a : Int) (n : Int) (P r : Nat) : Int := a + Int.fdiv (r * n) P

/-- `FileCatalog(filetype, path, ..., attrs=attrs)` for a file that exists (file.py 40-68, 187-192, 226-230). -/
def openFile (dflt : List (String × ρ)) (r P : Nat) (w : World ρ Range V) (f : File V) (attrs : List (String × V)) : World ρ Range V × Nat :=
  let d : Range := ⟨f.n, 0, f.n, bound 0 f.n P r, bound 0 f.n P (r + 1)⟩
  let size := (d.lend - d.lstart).toNat
  ({ w with dicts := w.dicts ++ [update (update [] (f.attrs.getD [])) attrs] }).add ⟨fileCls f.cols dflt, d, size, size, [], none, some w.dicts.length⟩

/-- What `query_range` makes of the copy (file.py 93-100). -/
def seek (r P : Nat) (s e : Int) (o : Obj ρ Range) : Obj ρ Range :=
  let a := bound (o.data.start + s) (e - s) P r
  let b := bound (o.data.start + s) (e - s) P (r + 1)
  { o with data := ⟨o.data.n, s, e, a, b⟩, size := (b - a).toNat, csize := (b - a).toNat, over := [], base := none }

/-- `query_range(start, end)` (file.py 70-101). `CatalogSource.hardcolumns.fget(self)` is empty for an object with its own memory; for a view it is `base.hardcolumns`, the columns of the
file. Catalogs of other classes do not have the method. -/
def query (r P : Nat) (w : World ρ Range V) (i : Nat) (s e : Int) : Except Err (World ρ Range V × Nat) :=
  match w.objs[i]? with
  | none => .error .nameError
  | some o =>
    if o.cls.name ≠ fileName then .error .attributeError
    else if o.base.isSome ∧ w.hardcolumns i ≠ [] then .error .valueError
    else (copy w i).map fun p => ({ p.1 with objs := p.1.objs.set p.2 (seek r P s e ((p.1.objs[p.2]?).getD o)) }, p.2)

/-- What a program can do. -/
inductive Op (ρ V : Type) where
  | cat (op : CatObj.Op ρ Range V)
  | openFile (f : File V) (attrs : List (String × V))
  | query (i : Nat) (s e : Int)

/-- The settings: the default columns, and the class of selections of columns. -/
structure Env (ρ : Type) where
  dflt : List (String × ρ)
  plain : Cls ρ Range

def exec (E : Env ρ) (r P : Nat) (w : World ρ Range V) : Op ρ V → Except Err (World ρ Range V)
  | .cat op => CatObj.exec E.plain w op
  | .openFile f attrs => .ok (openFile E.dflt r P w f attrs).1
  | .query i s e => (query r P w i s e).map Prod.fst

/-- One operation: an exception leaves everything as it was. -/
def step (E : Env ρ) (r P : Nat) (w : World ρ Range V) (op : Op ρ V) : World ρ Range V :=
  match exec E r P w op with
  | .ok w' => w'
  | .error _ => w

def run (E : Env ρ) (r P : Nat) (w : World ρ Range V) (ops : List (Op ρ V)) : World ρ Range V := ops.foldl (step E r P) w

/-! ## Opening on all ranks -/

/-- What happens on a rank. -/
inductive Fate (α : Type) where
  | made (a : α)
  | raised
  | waits

/-- `self._source = comm.bcast(FileStack(...))` (file.py 44-49): the file is opened on rank 0 only. The others wait for the broadcast. -/
def opens (P : Nat) (found : Option (File V)) : List (Fate (File V)) :=
  match found with
  | some f => List.replicate P (.made f)
  | none => (List.range P).map fun r => if r = 0 then .raised else .waits

end NBK.FileCatObj
