import Verif.Csv.Model
import Mathlib.Algebra.Order.Ring.Rat

/-!
# Model of the object `CSVFile` (nbodykit/io/csv.py 158-368)

From the keywords to the typed columns. The lines of the blocks are those of `Verif.Csv`; how a line is split into cells and what a cell
looks like to pandas is given (`split`). Types are `i8`, `f8` and `object`. `pandas.read_csv` is modelled by its documented behaviour
with `header=None`, `index_col=False`: a row that is too short is filled with NaN; a row with more cells than both the names and the first
row is an error with the engine 'c' unless `usecols` is given, and is cut with the engine 'python'; a first row that is too long is cut;
with types given a column is converted, and what does not fit is a ValueError; without types the type is found from all the cells of the
block. `numpy.concatenate` promotes integers to floats. Boolean columns, a `converters` keyword and column numbers in `usecols` are left out.
-/
namespace NBK.CsvObj
open NBK.FileIO

/-- A cell as pandas sees it: an integer, a number, nothing (NaN), anything else. -/
inductive Cell where
  | int (n : Int)
  | flt (q : ℚ)
  | missing
  | text (s : String)
  deriving DecidableEq

/-- The type of a column. -/
inductive DT where
  | i8 | f8 | obj
  deriving DecidableEq, Repr

/-- An entry of an array: of type `i8`, `f8` (two), `object`; `bits` is one whose bytes were taken for another type. -/
inductive Item where
  | i (n : Int)
  | f (q : ℚ)
  | nan
  | obj (c : Cell)
  | bits (x : Item)
  deriving DecidableEq

inductive Engine where
  | c | python | other
  deriving DecidableEq, Repr

/-- The column separator of pandas. -/
inductive Sep where
  | white
  | by (s : String)
  deriving DecidableEq, Repr

/-- The value of the keyword `index_col`. -/
inductive Key where
  | none
  | flag (b : Bool)
  | int (n : Int)
  | str (s : String)
  deriving DecidableEq, Repr

/-- `bool(value)` -/
def Key.truthy : Key → Bool
  | .none => false
  | .flag b => b
  | .int n => n != 0
  | .str s => s != ""

inductive Skip where
  | absent | none | num (n : Nat) | list
  deriving DecidableEq, Repr

inductive Nrows where
  | absent | none | num (n : Int)
  deriving DecidableEq, Repr

/-- The `dtype` keyword: a dict, a string, anything else (`None`, a `numpy.dtype`). -/
inductive DArg where
  | dict (l : List (String × DT))
  | str (d : DT)
  | other
  deriving DecidableEq, Repr

/-- The keywords of `CSVFile` (csv.py 246-247). For `index_col`, `comment` and `header` the outer option tells whether the keyword is given;
`sep` stands for `sep` or `delimiter`. -/
structure Cfg where
  blocksize : Nat := 32 * 1024 * 1024
  dtype : DArg := .dict []
  usecols : Option (List String) := none
  delimWhitespace : Bool := true
  indexCol : Option Key := none
  comment : Option (Option String) := none
  header : Option (Option Int) := none
  skiprows : Skip := .absent
  skipfooter : Option Nat := none
  sep : Option String := none
  engine : Engine := .c
  skipBlank : Bool := true
  nrows : Nrows := .absent
  deriving DecidableEq, Repr

/-- The checks of the keywords (csv.py 254-275). -/
def checkCfg (g : Cfg) : Except Err Unit :=
  if (g.indexCol.elim false Key.truthy) then .error .valueError
  else if (g.comment.elim false Option.isSome) then .error .valueError
  else if (g.header.elim false Option.isSome) then .error .valueError
  else if g.skiprows = .list then .error .valueError
  else if g.skipfooter.isSome then .error .valueError
  else .ok ()

/-- The separator (csv.py 278-280); pandas takes a comma if there is neither a separator nor `delim_whitespace`. -/
def sepOf (g : Cfg) : Sep :=
  match g.sep with
  | some s => .by s
  | none => if g.delimWhitespace then .white else .by ","

/-- `self.names` (csv.py 251). -/
def selOf (g : Cfg) (names : List String) : List String := g.usecols.getD names

/-- The number of physical lines that pandas skips. -/
def Skip.count : Skip → Nat
  | .num n => n
  | _ => 0

/-- The `nrows` of `verify_data` (csv.py 158, 287): 10 unless the keyword is given. -/
def Nrows.verify : Nrows → Option Int
  | .absent => some 10
  | .none => Option.none
  | .num n => some n

/-- The `nrows` of `make_partitions` (csv.py 111). -/
def Nrows.parts : Nrows → Option Int
  | .num n => some n
  | _ => Option.none

def Cell.isText : Cell → Bool
  | .text _ => true
  | _ => false

def Cell.isFloat : Cell → Bool
  | .flt _ | .missing => true
  | _ => false

/-- The type that pandas finds for a column; a column without rows is of type `object`. -/
def infer (cells : List Cell) : DT :=
  if cells = [] then .obj
  else if cells.any Cell.isText then .obj
  else if cells.any Cell.isFloat then .f8
  else .i8

/-- The cells of a column; names without a cell are NaN. -/
def colCells (names : List String) (rows : List (List Cell)) (c : String) : List Cell :=
  rows.map fun r => r.getD (names.idxOf c) .missing

/-- Whether there is a row that the engine 'c' rejects; `n` is the number of names. -/
def tooLong (n : Nat) : List (List Cell) → Bool
  | [] => false
  | r :: rs => rs.any fun x => decide (x.length > max n r.length)

variable {β : Type} [DecidableEq β]

/-- The columns and types of the first rows, `verify_data` (csv.py 158-208). Whatever is raised becomes a ValueError. -/
def verify (nl : β) (split : Sep → List β → List Cell) (bytes : List β) (names : List String) (g : Cfg) :
    Except Err (List (String × DT)) :=
  let nrows := g.nrows.verify
  if (nrows.elim false fun n => decide (n < 0)) || g.engine == .other then .error .valueError else
  let rows := (Csv.parse nl g.skipBlank ⟨bytes, g.skiprows.count, nrows⟩).map (split (sepOf g))
  match rows with
  | [] => .error .valueError
  | first :: _ =>
    if g.engine == .c && tooLong 0 rows then .error .valueError
    else if first.length ≠ names.length then .error .valueError
    else if !decide (names.Nodup) then .error .valueError
    else if !((selOf g names).all fun c => names.contains c) then .error .valueError
    else if (selOf g names).any fun c => (colCells names rows c).contains .missing then .error .valueError
    else if (selOf g names).any fun c => infer (colCells names rows c) == .obj then .error .valueError
    else .ok ((selOf g names).map fun c => (c, infer (colCells names rows c)))

/-- The entry of a dict. -/
def dictGet {γ : Type} (l : List (String × γ)) (c : String) : Option γ := (l.find? fun p => p.1 = c).map Prod.snd

/-- The type of one column (csv.py 295-304); `in` on what is not a container is a TypeError. -/
def typeOf (d : DArg) (inferred : List (String × DT)) (c : String) : Except Err DT :=
  match d with
  | .other => .error .typeError
  | .str t => .ok t
  | .dict l =>
    match dictGet l c with
    | some t => .ok t
    | none => match dictGet inferred c with
      | some t => .ok t
      | none => .error .valueError

/-- The object. -/
structure File (β : Type) where
  names : List String
  sel : List String
  usecols : Bool
  dtype : List (String × DT)
  sep : Sep
  engine : Engine
  skipBlank : Bool
  parts : List (Csv.Part β × Int)
  size : Int

/-- `make_partitions` as called from `__init__` (csv.py 317-318): `range` does not take a step 0, and `skiprows=None` cannot be subtracted. -/
def partition (nl : β) (bytes : List β) (g : Cfg) : Except Err (List (Csv.Part β × Int)) :=
  if g.blocksize = 0 then .error .valueError
  else if g.skiprows = .none ∧ bytes ≠ [] then .error .typeError
  else .ok (Csv.makePartitions nl bytes g.blocksize g.skipBlank g.skiprows.count g.nrows.parts)

/-- `CSVFile.__init__` (csv.py 259-327); `numpy.dtype` rejects a name that occurs twice. -/
def openCsv (nl : β) (split : Sep → List β → List Cell) (bytes : List β) (names : List String) (g : Cfg) : Except Err (File β) :=
  match checkCfg g with
  | .error e => .error e
  | .ok _ =>
    match verify nl split bytes names g with
    | .error e => .error e
    | .ok inferred =>
      match (selOf g names).mapM fun c => typeOf g.dtype inferred c with
      | .error e => .error e
      | .ok ts =>
        if !decide ((selOf g names).Nodup) then .error .valueError
        else match partition nl bytes g with
          | .error e => .error e
          | .ok ps => .ok ⟨names, selOf g names, g.usecols.isSome, (selOf g names).zip ts, sepOf g, g.engine, g.skipBlank, ps, Csv.csvSize ps⟩

/-- A cell converted to a type that is asked for. -/
def castCell (d : DT) (c : Cell) : Except Err Item :=
  match d, c with
  | .i8, .int n => .ok (.i n)
  | .i8, _ => .error .valueError
  | .f8, .int n => .ok (.f n)
  | .f8, .flt q => .ok (.f q)
  | .f8, .missing => .ok .nan
  | .f8, .text _ => .error .valueError
  | .obj, c => .ok (.obj c)

/-- A column of a block: with the engine 'c' of the type of the file (csv.py 309-310), otherwise of the type of its cells. -/
def convert (engine : Engine) (d : DT) (cells : List Cell) : Except Err (List Item) :=
  cells.mapM (castCell (if engine = .c then d else infer cells))

/-- `CSVPartition.value` (csv.py 37-61): all the selected columns. -/
def frame (nl : β) (split : Sep → List β → List Cell) (o : File β) (p : Csv.Part β) : Except Err (Nat × List (String × List Item)) :=
  let rows := (Csv.parse nl o.skipBlank p).map (split o.sep)
  if o.engine = .c ∧ o.usecols = false ∧ tooLong o.names.length rows = true then .error .valueError
  else
    match o.dtype.mapM fun d => (convert o.engine d.2 (colCells o.names rows d.1)).map fun l => (d.1, l) with
    | .error e => .error e
    | .ok cs => .ok (rows.length, cs)

/-- `data[name]` -/
def getCol (cs : List (String × List Item)) (c : String) : Except Err (List Item) :=
  match dictGet cs c with
  | some l => .ok l
  | none => .error .keyError

/-- The rows of some columns: `data[columns].to_records(index=False)` (csv.py 362-364). -/
def records (n : Nat) (cs : List (String × List Item)) (columns : List String) : Except Err (List (List Item)) :=
  match columns.mapM (getCol cs) with
  | .error e => .error e
  | .ok ls => .ok ((List.range n).map fun i => ls.map fun l => l.getD i .nan)

/-- Reads one partition. -/
def readPart (nl : β) (split : Sep → List β → List Cell) (o : File β) (columns : List String) (p : Csv.Part β) : Reader (List Item) :=
  fun a b _ =>
    match frame nl split o p with
    | .error e => .error e
    | .ok f =>
      match records f.1 f.2 columns with
      | .error e => .error e
      | .ok rows =>
        match PySlice.pySlice rows ⟨some a, some b, none⟩ with
        | some r => .ok r
        | none => .error .valueError

/-- An integer among floats. -/
def Item.toFloat : Item → Item
  | .i n => .f n
  | x => x

def Item.isFloat : Item → Bool
  | .f _ | .nan => true
  | _ => false

def Item.isObj : Item → Bool
  | .obj _ => true
  | _ => false

/-- Whether a column of the joined pieces has floats and no objects. -/
def floatColumn (rows : List (List Item)) (k : Nat) : Bool :=
  (rows.any fun r => (r.getD k .nan).isFloat) && !(rows.any fun r => (r.getD k .nan).isObj)

/-- The common type of the joined pieces. -/
def promote (rows : List (List Item)) : List (List Item) :=
  rows.map fun r => (List.range r.length).map fun k => if floatColumn rows k then (r.getD k .nan).toFloat else r.getD k .nan

/-- `CSVFile.read` (csv.py 329-368). Pieces of the engine 'c' have the same type. A negative size of a partition is taken as 0. -/
def read (nl : β) (split : Sep → List β → List Cell) (o : File β) (columns : List String) : Reader (List Item) :=
  fun start stop step =>
    match FileIO.stackRead (o.parts.map fun p => (p.2.toNat, readPart nl split o columns p.1)) start stop 1 with
    | .error e => .error e
    | .ok rows => everyStep (if o.engine = .c then rows else promote rows) step

/-- The bytes of an entry taken for a type; an object has none. -/
def viewAs (d : DT) : Item → Except Err Item
  | .i n => .ok (if d = .i8 then .i n else .bits (.i n))
  | .f q => .ok (if d = .f8 then .f q else .bits (.f q))
  | .nan => .ok (if d = .f8 then .nan else .bits .nan)
  | .obj c => if d = .obj then .ok (.obj c) else .error .valueError
  | .bits x => .ok (.bits x)

/-- `file[name][i]` (base.py 161-164, 228-256): the rows of the column, viewed with the type of the file. -/
def column (nl : β) (split : Sep → List β → List Cell) (o : File β) (c : String) (i : Index) : Except Err (List Item) :=
  match dictGet o.dtype c with
  | none => .error .indexError
  | some d =>
    match getitem (read nl split o [c]) o.size.toNat i with
    | .error e => .error e
    | .ok rows => rows.mapM fun r => viewAs d (r.headD .nan)

end NBK.CsvObj
