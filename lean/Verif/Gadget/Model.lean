import Verif.FileIO.Model

/-!
# Model of `Gadget1File` (nbodykit/io/gadget.py)

The decoded header (particle counts `npart`, the mass table being zero or not) and the decoding of a 4 byte record marker are
parameters; markers are taken as unsigned.  An item of a column is its list of bytes.
-/
namespace NBK.Gadget

inductive Err where
  | ioError | keyError | indexError | file (e : FileIO.Err)
  deriving DecidableEq, Repr

/-- A column definition (gadget.py 57, 106-110): name, number of elements per particle (`prod(spec[1])`), the element size
(`none`: 'auto'), whether the particle types are 'all', else the particle types. -/
structure Col where
  name : String
  shape : Nat
  elem : Option Nat
  all : Bool
  types : List Nat

/-- What the header provides: particles per type, and whether `Massarr` is zero. -/
structure Header where
  npart : Nat → Nat
  massZero : Nat → Bool

/-- The particle types present in the block (gadget.py 112-115). -/
def ptypesOf (h : Header) (c : Col) : List Nat :=
  if c.all then [0, 1, 2, 3, 4, 5]
  else if c.name = "Mass" then [0, 1, 2, 3, 4, 5].filter h.massZero
  else c.types

/-- `reloffset` and `N` (gadget.py 117-123). -/
def scan (h : Header) (ptype : Nat) (ts : List Nat) : Nat × Nat :=
  ts.foldl (fun s i => (if i = ptype then s.2 else s.1, s.2 + h.npart i)) (0, 0)

/-- `numpy.fromfile(ff, dtype='i4', count=1)[0]` at `ptr`. -/
def readMarker {β : Type} (dec : List β → Nat) (bytes : List β) (ptr : Nat) : Except Err Nat :=
  match FileIO.fromfile bytes ptr 4 1 with
  | x :: _ => .ok (dec x)
  | [] => .error .indexError

/-- A column found in the file: offset of the rows of `ptype`, bytes per row, and whether it is in the dtype of the file. -/
structure Entry where
  name : String
  offset : Nat
  width : Nat
  inDtype : Bool
  deriving DecidableEq, Repr

/-- The element size: the `mapping` of gadget.py 154-160 for 'auto', else the one given. -/
def elemSize (c : Col) (prec : Option Nat) : Except Err Nat :=
  match c.elem with
  | some e => .ok e
  | none =>
    match prec with
    | none => .ok (if c.name = "ID" then 4 else 8)
    | some 8 => .ok 8
    | some 4 => .ok 4
    | some _ => .error .keyError

/-- One turn of the loop over `columndefs` (gadget.py 106-165); returns the new `ptr`. -/
def columnStep {β : Type} (dec : List β → Nat) (bytes : List β) (named : Bool) (h : Header) (ptype : Nat) (ptr : Nat)
    (c : Col) : Except Err (Nat × Entry) :=
  let ts := ptypesOf h c
  let rel := (scan h ptype ts).1
  let N := (scan h ptype ts).2
  let inDtype := c.name = "Mass" || ts.contains ptype
  if N ≠ 0 then do
    let ptr := if named then ptr + 4 + 8 + 4 else ptr
    let a ← readMarker dec bytes ptr
    let ptr := ptr + 4
    let itemsize := a / N
    let blocksize := N * itemsize
    let offset := ptr + rel * itemsize
    let ptr := ptr + a
    let b ← readMarker dec bytes ptr
    let ptr := ptr + 4
    if a ≠ b ∨ b ≠ blocksize then .error .ioError else do
    let e ← elemSize c (some (itemsize / c.shape))
    pure (ptr, ⟨c.name, offset, e * c.shape, inDtype⟩)
  else do
    let e ← elemSize c none
    pure (ptr, ⟨c.name, ptr, e * c.shape, inDtype⟩)

/-- The loop over `columndefs`. -/
def columnLoop {β : Type} (dec : List β → Nat) (bytes : List β) (named : Bool) (h : Header) (ptype : Nat) :
    Nat → List Col → Except Err (List Entry)
  | _, [] => .ok []
  | ptr, c :: cs => do
    let r ← columnStep dec bytes named h ptype ptr c
    let rest ← columnLoop dec bytes named h ptype r.1 cs
    pure (r.2 :: rest)

/-- `Gadget1File.__init__` (gadget.py 67-172), behind the header record. -/
def openGadget {β : Type} (dec : List β → Nat) (bytes : List β) (named : Bool) (h : Header) (ptype : Nat) (cols : List Col) :
    Except Err (List Entry) :=
  columnLoop dec bytes named h ptype (256 + 4 + 4 + (if named then 4 + 8 + 4 else 0)) cols

/-- `Gadget1File.read` for one column (gadget.py 199-216). `massItem` is the mass of the header as an item, used for the
column 'Mass' if it is not zero. -/
def readColumn {β : Type} (bytes : List β) (h : Header) (ptype : Nat) (massItem : List β) (e : Entry)
    (start stop step : Int) : Except Err (List (List β)) :=
  if stop > h.npart ptype ∨ start > h.npart ptype ∨ start < 0 ∨ stop < 0 then .error .indexError
  else if step = 0 ∨ FileIO.getSliceSize start stop step < 0 then .error (.file .valueError)
  else if e.name = "Mass" ∧ h.massZero ptype = false then
    .ok (List.replicate (FileIO.getSliceSize start stop step).toNat massItem)
  else match FileIO.binRead bytes e.offset e.width start stop step with
    | .ok r => .ok r
    | .error x => .error (.file x)

end NBK.Gadget
