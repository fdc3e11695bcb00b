import Verif.Slicing.Model
import Mathlib.Data.List.Sort
import Mathlib.Data.String.Basic

/-!
# Model of programs with many `CatalogSource` objects (nbodykit/base/catalog.py 188-545, 705-752, 905-1011)

A world on one rank holds the arrays of the caller, the catalogs that were made and the dictionaries of attributes. A program creates catalogs, makes views, copies, slices and
selections of columns of them, sets and deletes columns, writes into its arrays and changes attributes, in any order. A column is a dask array: a tree over the arrays of the
caller that is evaluated when it is computed. Rows have any type. `_size` is known when an object is made (subclasses must set it). Chunks are not modelled, nor the `attrs` of
columns (topic `ArrObj`).
-/
set_option linter.unusedSimpArgs false
namespace NBK.CatObj
open NBK.Slicing (Index)

inductive Err where
  | keyError | valueError | indexError | assertionError | attributeError | typeError | nameError
  deriving DecidableEq, Repr

def ofErr : NBK.Slicing.Err → Err
  | .keyError => .keyError
  | .valueError => .valueError
  | .indexError => .indexError
  | .assertionError => .assertionError
  | .undefined => .valueError

/-- A dask array: an array of the caller (`da.from_array`), a constant one (`ConstantArray`), picked rows of another one, and `map_blocks(numpy.copy)`. -/
inductive Col (ρ : Type) where
  | buf (b : Nat)
  | const (n : Nat) (x : ρ)
  | rows (c : Col ρ) (idx : List Nat)
  | copy (c : Col ρ)

/-- A class: the columns of its methods marked as columns, the default ones apart (catalog.py 126-163). A hard-coded column is computed from what the object carries, a default
one is constant (`Weight`, `Value`, `Selection`, catalog.py 1166-1217). -/
structure Cls (ρ δ : Type) where
  name : String
  hard : List (String × (δ → Col ρ))
  dflt : List (String × ρ)

/-- An object: its class, what `__finalize__` hands on (`data`, and the reference to `_attrs` if there is one), `_size`, `_csize`, `_overrides` and `base` (catalog.py 222-268). -/
structure Obj (ρ δ : Type) where
  cls : Cls ρ δ
  data : δ
  size : Nat
  csize : Nat
  over : List (String × Col ρ)
  base : Option Nat
  attrs : Option Nat

structure World (ρ δ V : Type) where
  bufs : List (List ρ)
  objs : List (Obj ρ δ)
  dicts : List (List (String × V))

variable {ρ δ V : Type}

/-- Look-up in a dictionary. -/
def get {β : Type} (k : String) (l : List (String × β)) : Option β := (l.find? fun p => p.1 == k).map Prod.snd

/-- `d[k] = v`. -/
def put {β : Type} (k : String) (v : β) (l : List (String × β)) : List (String × β) := l.filter (fun p => p.1 != k) ++ [(k, v)]

/-- `del d[k]`. -/
def erase {β : Type} (k : String) (l : List (String × β)) : List (String × β) := l.filter fun p => p.1 != k

/-- `compute()`: the arrays of the caller are looked at now. -/
def Col.eval (bufs : List (List ρ)) : Col ρ → List ρ
  | .buf b => (bufs[b]?).getD []
  | .const n x => List.replicate n x
  | .rows c idx => idx.filterMap fun i => (c.eval bufs)[i]?
  | .copy c => c.eval bufs

/-- `len(column)`: known without computing. -/
def Col.len (bufs : List (List ρ)) : Col ρ → Nat
  | .buf b => ((bufs[b]?).getD []).length
  | .const n _ => n
  | .rows _ idx => idx.length
  | .copy c => c.len bufs

/-- The owner of the memory: every accessor begins with `if self.base is not None: return self.base. ...`. -/
def owner (objs : List (Obj ρ δ)) (i : Nat) : Nat :=
  match (objs[i]?).bind Obj.base with
  | none => i
  | some b => if _h : b < i then owner objs b else i
termination_by i

/-- The object that owns the memory of a catalog. -/
def World.own (w : World ρ δ V) (i : Nat) : Option (Obj ρ δ) := w.objs[owner w.objs i]?

/-- `self.size`, `self.csize` (catalog.py 974-1011). -/
def World.size (w : World ρ δ V) (i : Nat) : Nat := ((w.own i).map Obj.size).getD 0
def World.csize (w : World ρ δ V) (i : Nat) : Nat := ((w.own i).map Obj.csize).getD 0

/-- `self[col]` in the owner, and whether it is a default column (catalog.py 367-386). -/
def Obj.read (o : Obj ρ δ) (c : String) : Except Err (Col ρ × Bool) :=
  match get c o.over with
  | some x => .ok (x, false)
  | none =>
    match get c o.cls.hard with
    | some f => .ok (f o.data, false)
    | none =>
      match get c o.cls.dflt with
      | some x => .ok (.const o.size x, true)
      | none => .error .keyError

/-- `self[col]`. -/
def World.read (w : World ρ δ V) (i : Nat) (c : String) : Except Err (Col ρ × Bool) :=
  match w.own i with
  | none => .error .nameError
  | some o => o.read c

/-- `self.columns` (catalog.py 457-472): in order, without repetition. -/
def Obj.columns (o : Obj ρ δ) : List String :=
  ((o.cls.hard.map Prod.fst ++ o.over.map Prod.fst ++ o.cls.dflt.map Prod.fst).dedup).insertionSort (· ≤ ·)

def World.columns (w : World ρ δ V) (i : Nat) : List String := ((w.own i).map Obj.columns).getD []

/-- `self.hardcolumns` (catalog.py 439-455). -/
def World.hardcolumns (w : World ρ δ V) (i : Nat) : List String :=
  ((w.own i).map fun o => (o.cls.hard.map Prod.fst).dedup.insertionSort (· ≤ ·)).getD []

/-- `get_hardcolumn(col)` (catalog.py 509-527). -/
def World.hardColumn (w : World ρ δ V) (i : Nat) (c : String) : Except Err (Col ρ) :=
  match w.own i with
  | none => .error .nameError
  | some o =>
    match get c o.cls.hard with
    | some f => .ok (f o.data)
    | none => .error .valueError

/-- `self.compute(self[col])`. -/
def World.rows (w : World ρ δ V) (i : Nat) (c : String) : Except Err (List ρ) := (w.read i c).map fun x => x.1.eval w.bufs

/-- The names of the columns that `save()` writes: the ones that are not default (catalog.py 591-594). -/
def World.saved (w : World ρ δ V) (i : Nat) : List String :=
  (w.columns i).filter fun c => match w.read i c with | .ok (_, d) => !d | .error _ => false

/-- `self.attrs`: made when it is first asked for (catalog.py 428-437). -/
def World.touch (w : World ρ δ V) (i : Nat) : World ρ δ V × Nat :=
  match w.objs[i]? with
  | none => (w, 0)
  | some o =>
    match o.attrs with
    | some r => (w, r)
    | none => ({ w with objs := w.objs.set i { o with attrs := some w.dicts.length }, dicts := w.dicts ++ [[]] }, w.dicts.length)

/-- What `attrs` shows. -/
def World.attrsOf (w : World ρ δ V) (i : Nat) : List (String × V) :=
  (((w.objs[i]?).bind Obj.attrs).bind fun r => w.dicts[r]?).getD []

/-- Append an object. -/
def World.add (w : World ρ δ V) (o : Obj ρ δ) : World ρ δ V × Nat := ({ w with objs := w.objs ++ [o] }, w.objs.length)

/-- `__setitem__` of all columns of a new object (catalog.py 939-943, 955-972). -/
def setAll (bufs : List (List ρ)) (n : Nat) (cols : List (String × Col ρ)) : Except Err (List (String × Col ρ)) :=
  if cols.any fun p => p.2.len bufs ≠ n then .error .assertionError else .ok (cols.foldl (fun l p => put p.1 p.2 l) [])

/-- The names of the arguments of `_from_columns(cls, size, comm, **columns)` (catalog.py 917-918): a column with such a name is a second value for the argument. -/
def reserved : List String := ["cls", "size", "comm"]

/-- `_from_columns` and `__init__` (catalog.py 907-943); the sizes of the ranks are added by the communication (`csize`, see `Ranks`). -/
def fromColumns (w : World ρ δ V) (cls : Cls ρ δ) (data : δ) (n : Nat) (cols : List (String × Col ρ)) (attrs : Option Nat) : Except Err (World ρ δ V × Nat) :=
  if cols.any fun p => reserved.contains p.1 then .error .typeError
  else (setAll w.bufs n cols).map fun over => w.add ⟨cls, data, n, n, over, none, attrs⟩

/-- `view(type)` (catalog.py 727-752). -/
def view (w : World ρ δ V) (i : Nat) (type : Option (Cls ρ δ)) : Except Err (World ρ δ V × Nat) :=
  match w.objs[i]? with
  | none => .error .nameError
  | some o => .ok (w.add ⟨type.getD o.cls, o.data, w.size i, w.csize i, [], some i, o.attrs⟩)

/-- The columns and the values that the comprehension `{col: self[col] for col in names}` collects. -/
def gather (w : World ρ δ V) (i : Nat) (names : List String) : Except Err (List (String × Col ρ × Bool)) :=
  names.mapM fun c => (w.read i c).map fun x => (c, x)

/-- `copy()` (catalog.py 474-507): `self._attrs.copy()` is the last statement. -/
def copy (w : World ρ δ V) (i : Nat) : Except Err (World ρ δ V × Nat) :=
  match w.objs[i]? with
  | none => .error .nameError
  | some o =>
    (gather w i (w.columns i)).bind fun cols =>
    (setAll w.bufs (w.size i) (cols.map fun p => (p.1, p.2.1))).bind fun over =>
    match o.attrs with
    | none => .error .attributeError
    | some r =>
      .ok ({ w with dicts := w.dicts ++ [(w.dicts[r]?).getD []] }.add ⟨o.cls, o.data, w.size i, w.csize i, over, none, some w.dicts.length⟩)

/-- `self[col][index]`. -/
def pick (bufs : List (List ρ)) (c : Col ρ) (ix : Index) : Except Err (Col ρ) :=
  match NBK.Slicing.colIndex (List.range (c.len bufs)) ix with
  | .ok idx => .ok (.rows c idx)
  | .error e => .error (ofErr e)

/-- `size <= 0.51 * self.size` (catalog.py 313-316). -/
def small (n size : Nat) : Bool := 100 * n ≤ 51 * size

/-- `self.__class__ if self.base is None else self.base.__class__` (catalog.py 318). -/
def sliceCls (w : World ρ δ V) (o : Obj ρ δ) : Cls ρ δ :=
  match o.base with
  | none => o.cls
  | some b => ((w.objs[b]?).map Obj.cls).getD o.cls

/-- `self[index]` with an index of rows (catalog.py 275-325). -/
def slice (w : World ρ δ V) (i : Nat) (ix : Index) : Except Err (World ρ δ V × Nat) :=
  match w.objs[i]? with
  | none => .error .nameError
  | some o =>
    if ix = .ellipsis then .ok (w, i)
    else
      match NBK.Slicing.newSize (w.size i) ix with
      | .error e => .error (ofErr e)
      | .ok n =>
        (gather w i (w.columns i)).bind fun cols =>
        ((cols.filter fun p => !p.2.2).mapM fun p =>
          (pick w.bufs p.2.1 ix).map fun c => (p.1, if small n (w.size i) then Col.copy c else c)).bind fun sub =>
        fromColumns w (sliceCls w o) o.data n sub o.attrs

/-- `self[[names]]` (catalog.py 350-362): a plain `CatalogSource`, whose dictionary of attributes is made and filled at once. An empty list is an index without rows. -/
def select (plain : Cls ρ δ) (w : World ρ δ V) (i : Nat) (names : List String) : Except Err (World ρ δ V × Nat) :=
  match w.objs[i]? with
  | none => .error .nameError
  | some o =>
    if names = [] then slice w i (.ints [])
    else if names.any fun c => c ∉ w.columns i then .error .keyError
    else
      (gather w i names.dedup).bind fun cols =>
      (fromColumns { w with dicts := w.dicts ++ [[]] } plain o.data (w.size i) (cols.map fun p => (p.1, p.2.1)) (some w.dicts.length)).map fun p =>
      let w2 := p.1.touch i
      ({ w2.1 with dicts := w2.1.dicts.set w.dicts.length ((w2.1.dicts[w2.2]?).getD []) }, p.2)

/-- What is assigned to a column: a scalar, an array of the caller, a column of a catalog, rows of one. -/
inductive Given (ρ : Type) where
  | scalar (x : ρ)
  | buf (b : Nat)
  | col (j : Nat) (c : String)
  | colRows (j : Nat) (c : String) (ix : Index)

/-- The dask array that is assigned (catalog.py 195-226, 957-962). `make_column` returns a column of a catalog as it is. -/
def Given.value (w : World ρ δ V) (n : Nat) : Given ρ → Except Err (Col ρ)
  | .scalar x => .ok (.const n x)
  | .buf b => if b < w.bufs.length then .ok (.buf b) else .error .nameError
  | .col j c => (w.read j c).map Prod.fst
  | .colRows j c ix => (w.read j c).bind fun x => pick w.bufs x.1 ix

/-- The owner with other columns that were set. -/
def World.setOver (w : World ρ δ V) (i : Nat) (f : List (String × Col ρ) → List (String × Col ρ)) : World ρ δ V :=
  match w.objs[i]? with
  | none => w
  | some o => { w with objs := w.objs.set i { o with over := f o.over } }

/-- `self[c] = value` (catalog.py 388-404, 955-972). -/
def setCol (w : World ρ δ V) (i : Nat) (c : String) (v : Given ρ) : Except Err (World ρ δ V) :=
  match w.objs[i]? with
  | none => .error .nameError
  | some _ =>
    (v.value w (w.size i)).bind fun x =>
    if x.len w.bufs ≠ w.size i then .error .assertionError
    else .ok (w.setOver (owner w.objs i) (put c x))

/-- `del self[c]` (catalog.py 406-426). -/
def delCol (w : World ρ δ V) (i : Nat) (c : String) : Except Err (World ρ δ V) :=
  match w.own i with
  | none => .error .nameError
  | some o =>
    if c ∉ o.columns then .error .valueError
    else if (get c o.cls.hard).isSome then .error .valueError
    else if (get c o.over).isSome then .ok (w.setOver (owner w.objs i) (erase c))
    else .error .valueError

/-- What a program can do. -/
inductive Op (ρ δ V : Type) where
  | newBuf (l : List ρ)
  | poke (b : Nat) (l : List ρ)
  | new (cls : Cls ρ δ) (data : δ) (size : Nat)
  | view (i : Nat) (type : Option (Cls ρ δ))
  | copy (i : Nat)
  | slice (i : Nat) (ix : Index)
  | select (i : Nat) (names : List String)
  | set (i : Nat) (c : String) (v : Given ρ)
  | del (i : Nat) (c : String)
  | touch (i : Nat)
  | attr (i : Nat) (k : String) (v : V)

/-- The new world, or the exception. Writing into an array keeps its length. A new object has no `_attrs`. -/
def exec (plain : Cls ρ δ) (w : World ρ δ V) : Op ρ δ V → Except Err (World ρ δ V)
  | .newBuf l => .ok { w with bufs := w.bufs ++ [l] }
  | .poke b l =>
    match w.bufs[b]? with
    | none => .error .nameError
    | some x => if l.length = x.length then .ok { w with bufs := w.bufs.set b l } else .error .valueError
  | .new cls data size => .ok (w.add ⟨cls, data, size, size, [], none, none⟩).1
  | .view i ty => (view w i ty).map Prod.fst
  | .copy i => (copy w i).map Prod.fst
  | .slice i ix => (slice w i ix).map Prod.fst
  | .select i names => (select plain w i names).map Prod.fst
  | .set i c v => setCol w i c v
  | .del i c => delCol w i c
  | .touch i => if i < w.objs.length then .ok (w.touch i).1 else .error .nameError
  | .attr i k v =>
    if i < w.objs.length then
      let p := w.touch i
      .ok { p.1 with dicts := p.1.dicts.set p.2 (put k v ((p.1.dicts[p.2]?).getD [])) }
    else .error .nameError

/-- One operation: an exception leaves everything as it was. -/
def step (plain : Cls ρ δ) (w : World ρ δ V) (op : Op ρ δ V) : World ρ δ V :=
  match exec plain w op with
  | .ok w' => w'
  | .error _ => w

def run (plain : Cls ρ δ) (w : World ρ δ V) (ops : List (Op ρ δ V)) : World ρ δ V := ops.foldl (step plain) w

/-! ## The same program on all ranks -/

/-- The operations that end with a communication: the sizes of the new objects are added (catalog.py 935-937, 949-953). -/
def collective : Op ρ δ V → Bool
  | .new _ _ _ => true
  | .slice _ ix => !(decide (ix = .ellipsis))
  | .select _ _ => true
  | _ => false

/-- The object that was made last gets the sum. -/
def setCsize (n : Nat) (w : World ρ δ V) : World ρ δ V :=
  match w.objs.getLast? with
  | none => w
  | some o => { w with objs := w.objs.set (w.objs.length - 1) { o with csize := n } }

def lastSize (w : World ρ δ V) : Nat := ((w.objs.getLast?).map Obj.size).getD 0

/-- What happens to all ranks: they go on; all raise; some wait for ever for one that has raised; only some of them have a new object. -/
inductive Outcome (ρ δ V : Type) where
  | ok (ws : List (World ρ δ V))
  | raised
  | stuck
  | diverged

/-- The object-making operations. -/
def creates : Op ρ δ V → Bool
  | .new _ _ _ => true
  | .view _ _ => true
  | .copy _ => true
  | .slice _ _ => true
  | .select _ _ => true
  | _ => false

/-- One operation on all ranks, each with its own arguments. All exceptions of slices and selections come before the communication (a length that does not fit, which would come
after it, cannot happen: `Props`). -/
def joint (plain : Cls ρ δ) (l : List (World ρ δ V × Op ρ δ V)) : Outcome ρ δ V :=
  let good := l.map fun p => (exec plain p.1 p.2).toBool
  let ws := l.map fun p => step plain p.1 p.2
  let coll := l.any fun p => collective p.2
  if good.all id then .ok (if coll then ws.map (setCsize (ws.map lastSize).sum) else ws)
  else if l.all fun p => !creates p.2 then .ok ws
  else if good.all not then .raised
  else if coll then .stuck
  else .diverged

/-- A program on all ranks: every line is one operation for each rank. -/
def jointRun (plain : Cls ρ δ) : List (World ρ δ V) → List (List (Op ρ δ V)) → Outcome ρ δ V
  | ws, [] => .ok ws
  | ws, ops :: rest =>
    match joint plain (ws.zip ops) with
    | .ok ws' => jointRun plain ws' rest
    | .raised => .raised
    | .stuck => .stuck
    | .diverged => .diverged

end NBK.CatObj
