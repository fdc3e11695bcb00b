/-!
# Model of catalog objects: columns, attrs, copies, views and slices (nbodykit/base/catalog.py)

Catalog objects live on a heap.  A Python dict is a function `String → Option _`.
Column data are immutable dask arrays, modelled as lists of rows on one rank.
Simplifications: the columns defined by the class (`_hardcolumns`, `_defaults`) are given by functions and have the right
length; a column is read as plain data (the `ColumnAccessor` wrapper is dropped); dask/numpy conversion is not modelled.
-/
namespace NBK.Catalog

/-- Exceptions. -/
inductive Err where
  | keyError | valueError | assertionError | attributeError
  deriving DecidableEq, Repr

/-- A class: hard-coded columns and default columns (`ColumnFinder`, catalog.py 126-163). The default columns
(`Weight`, `Value`, `Selection`) are constant arrays and depend on the size only. -/
structure Cls (ρ : Type) where
  hard : String → Option (List ρ)
  dflt : String → Option (Nat → List ρ)

/-- The per-object memory: class, `_size`, `_overrides` (catalog.py 228-237). -/
structure Obj (ρ : Type) where
  cls : Cls ρ
  size : Nat
  over : String → Option (List ρ)

/-- Heap: objects, their `base` attribute, the reference to the `_attrs` dict (absent until first use, catalog.py
431-437), and the dicts. `nobj`, `ndict` are the allocation counters. -/
structure Heap (ρ V : Type) where
  obj : Nat → Obj ρ
  base : Nat → Option Nat
  attrs : Nat → Option Nat
  dict : Nat → String → Option V
  nobj : Nat
  ndict : Nat

variable {ρ V : Type}

/-- Pointwise update. -/
def put {β : Type} (f : Nat → β) (i : Nat) (x : β) : Nat → β := fun j => if j = i then x else f j

/-- Memory owner: follow `base` to the end (every accessor starts with `if self.base is not None: return
self.base....`).  The base of an object is older than the object, which makes the recursion finite. -/
def owner (base : Nat → Option Nat) (i : Nat) : Nat :=
  match base i with
  | none => i
  | some b => if _h : b < i then owner base b else i
termination_by i

/-- Column look-up in the owner (catalog.py 370-386). -/
def Obj.get (o : Obj ρ) (c : String) : Except Err (List ρ) :=
  match o.over c with
  | some v => .ok v
  | none =>
    match o.cls.hard c with
    | some v => .ok v
    | none =>
      match o.cls.dflt c with
      | some f => .ok (f o.size)
      | none => .error .keyError

/-- `cat[col]` (catalog.py 366-390). -/
def getCol (h : Heap ρ V) (i : Nat) (c : String) : Except Err (List ρ) := (h.obj (owner h.base i)).get c

/-- What may be assigned: a scalar or an array. -/
inductive Value (ρ : Type) where
  | scalar (x : ρ)
  | arr (l : List ρ)

/-- `ConstantArray(value, self.size)` for scalars (catalog.py 960-962). -/
def Value.toCol (n : Nat) : Value ρ → List ρ
  | .scalar x => List.replicate n x
  | .arr l => l

/-- `cat[col] = value` on the owner (catalog.py 955-972, 393-404): length check, then override. -/
def Obj.set (o : Obj ρ) (c : String) (v : Value ρ) : Except Err (Obj ρ) :=
  let l := v.toCol o.size
  if l.length = o.size then .ok { o with over := fun c' => if c' = c then some l else o.over c' }
  else .error .assertionError

/-- `del cat[col]` on the owner (catalog.py 406-426). -/
def Obj.del (o : Obj ρ) (c : String) : Except Err (Obj ρ) :=
  match o.get c with
  | .error _ => .error .valueError                    -- not in self.columns
  | .ok _ =>
    if (o.cls.hard c).isSome then .error .valueError
    else if (o.over c).isSome then .ok { o with over := fun c' => if c' = c then none else o.over c' }
    else .error .valueError

/-- Updates a client can make on an object. -/
inductive Upd (ρ V : Type) where
  | set (i : Nat) (c : String) (v : Value ρ)
  | del (i : Nat) (c : String)
  | attr (i : Nat) (k : String) (v : V)

/-- The object an update is addressed to. -/
def Upd.target : Upd ρ V → Nat
  | .set i _ _ => i
  | .del i _ => i
  | .attr i _ _ => i

/-- `self.attrs`: creates the dict at first use (catalog.py 428-437). -/
def attrsOf (h : Heap ρ V) (i : Nat) : Heap ρ V × Nat :=
  match h.attrs i with
  | some r => (h, r)
  | none => ({ h with attrs := put h.attrs i (some h.ndict), dict := put h.dict h.ndict (fun _ => none),
                      ndict := h.ndict + 1 }, h.ndict)

/-- One update; an exception leaves the heap as it was. -/
def step (h : Heap ρ V) : Upd ρ V → Heap ρ V
  | .set i c v =>
    match (h.obj (owner h.base i)).set c v with
    | .ok o => { h with obj := put h.obj (owner h.base i) o }
    | .error _ => h
  | .del i c =>
    match (h.obj (owner h.base i)).del c with
    | .ok o => { h with obj := put h.obj (owner h.base i) o }
    | .error _ => h
  | .attr i k v =>
    let (h, r) := attrsOf h i
    { h with dict := put h.dict r (fun k' => if k' = k then some v else h.dict r k') }

/-- A history of updates. -/
def run (h : Heap ρ V) (us : List (Upd ρ V)) : Heap ρ V := us.foldl step h

/-- Allocate an object. -/
def alloc (h : Heap ρ V) (o : Obj ρ) (base attrs : Option Nat) : Heap ρ V × Nat :=
  ({ h with obj := put h.obj h.nobj o, base := put h.base h.nobj base, attrs := put h.attrs h.nobj attrs,
            nobj := h.nobj + 1 }, h.nobj)

/-- `copy()` (catalog.py 474-507): a new object of the same class, all columns of `self` as overrides, attrs copied;
`self._attrs.copy()` is an AttributeError if `attrs` was never used. `self.__class__` of a view is its own class; here a
view has the class of its owner (`view(type=None)`). -/
def copy (h : Heap ρ V) (i : Nat) : Except Err (Heap ρ V × Nat) :=
  match h.attrs i with
  | none => .error .attributeError
  | some r =>
    let o := h.obj (owner h.base i)
    let h := { h with dict := put h.dict h.ndict (h.dict r), ndict := h.ndict + 1 }
    .ok (alloc h ⟨o.cls, o.size, fun c => (o.get c).toOption⟩ none (some (h.ndict - 1)))

/-- `view()` (catalog.py 727-752): base is `self`; `__finalize__` copies the reference to `_attrs` (239-267). -/
def view (h : Heap ρ V) (i : Nat) : Heap ρ V × Nat :=
  let o := h.obj (owner h.base i)
  alloc h ⟨o.cls, o.size, fun _ => none⟩ (some i) (h.attrs i)

/-- `cat[index]` (catalog.py 275-325): the rows `idx` of all non-default columns become overrides of a new
object; `__finalize__` copies the reference to `_attrs`. An overridden default column is not default (375-383). -/
def slice (h : Heap ρ V) (i : Nat) (idx : List Nat) : Heap ρ V × Nat :=
  let o := h.obj (owner h.base i)
  let rows : List ρ → List ρ := fun l => idx.filterMap fun j => l[j]?
  alloc h ⟨o.cls, idx.length, fun c =>
    if (o.over c).isSome || (o.cls.hard c).isSome then (o.get c).toOption.map rows else none⟩ none (h.attrs i)

/-- `cat[[names]]` (catalog.py 354-362): KeyError for unknown names, plain `CatalogSource` with the columns, attrs
updated from `self.attrs` (both sides have their own dict). `plain` is the class `CatalogSource`. -/
def select (plain : Cls ρ) (h : Heap ρ V) (i : Nat) (names : List String) : Except Err (Heap ρ V × Nat) :=
  let o := h.obj (owner h.base i)
  if names.any (fun c => match o.get c with | .error _ => true | .ok _ => false) then .error .keyError else
  let (h, r) := attrsOf h i
  let h := { h with dict := put h.dict h.ndict (h.dict r), ndict := h.ndict + 1 }
  .ok (alloc h ⟨plain, o.size, fun c => if c ∈ names then (o.get c).toOption else none⟩ none (some (h.ndict - 1)))

/-- What `attrs` shows. -/
def attrsView (h : Heap ρ V) (i : Nat) : String → Option V :=
  match h.attrs i with
  | none => fun _ => none
  | some r => h.dict r

end NBK.Catalog
