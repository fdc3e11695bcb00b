import Verif.PySlice.Basic
/-!
# Model of `BinnedStatistic` objects and the arrays they share (nbodykit/binned_statistic.py 142-442, 553-592, 664-805, 843-955)

The heap holds the memory of the arrays, the lists `_fields_to_sum` and the values of `attrs`; a world is a heap with the objects made so far.
An array is a view: the number of its memory and the positions of its elements in it, in row-major order. A structured array has in addition the
names of its fields with their places in an element and the size of an element; all the fields are taken to have the same size. The dictionaries
`edges`, `coords` and `attrs` and the list `dims` are never shared by two objects, so that they are kept in the objects. Indexing with several names
gives a view (numpy 1.16 and later). The values computed by `reindex` and the indices found by `sel` and `take` are the subject of C44, C45 and C105,
here they are arguments.
-/
namespace NBK.StatObj
open NBK.PySlice

/-- The exceptions; `leftOut` is what the model does not describe, `noObject` an object that does not exist. -/
inductive Err where
  | valueError
  | keyError
  | indexError
  | leftOut
  | noObject
  deriving DecidableEq, Repr

/-- The numbers: their zero, `numpy.isfinite`, and `0.5 * (a + b)`. -/
class Num (V : Type) where
  zero : V
  fin : V → Bool
  mid : V → V → V

/-- An array of numbers or booleans. -/
structure Arr where
  buf : Nat
  idx : List Nat
  deriving DecidableEq, Repr

/-- A structured array. -/
structure DArr where
  buf : Nat
  idx : List Nat
  fields : List (String × Nat)
  width : Nat
  deriving DecidableEq, Repr

/-- The attributes of a `BinnedStatistic`. -/
structure Stat where
  dims : List String
  edges : List (String × Arr)
  coords : List (String × Arr)
  data : DArr
  mask : Arr
  attrs : List (String × Nat)
  fsum : Nat
  deriving DecidableEq, Repr

/-- The memory and the objects. `names` are the lists of strings; the list with number 0 is the default of `fields_to_sum` in `__init__`. -/
structure World (V : Type) where
  nums : List (List V)
  cells : List (List (List V))
  bits : List (List Bool)
  names : List (List String)
  boxes : List V
  stats : List Stat

/-- The world when nbodykit has been imported. -/
def World.start (V : Type) : World V := ⟨[], [], [], [[]], [], []⟩

/-- `d[k]` of a dictionary. -/
def get {α : Type} (k : String) : List (String × α) → Option α
  | [] => none
  | p :: ps => if p.1 = k then some p.2 else get k ps

/-- `d[k] = v`. -/
def put {α : Type} (k : String) (v : α) : List (String × α) → List (String × α)
  | [] => [(k, v)]
  | p :: ps => if p.1 = k then (k, v) :: ps else p :: put k v ps

/-- `d.pop(k)`. -/
def del {α : Type} (k : String) (d : List (String × α)) : List (String × α) := d.filter fun p => p.1 ≠ k

/-- The elements at the given positions. -/
def pick {α : Type} (z : α) (l : List α) (idx : List Nat) : List α := idx.map fun k => l.getD k z

/-- The elements of an array in memory `mem`. -/
def Arr.vals {α : Type} (z : α) (mem : List (List α)) (a : Arr) : List α := pick z (mem.getD a.buf []) a.idx

/-- The records of a structured array. -/
def DArr.rows {V : Type} (mem : List (List (List V))) (d : DArr) : List (List V) := pick [] (mem.getD d.buf []) d.idx

/-- One field of the records. -/
def DArr.col {V : Type} [Num V] (mem : List (List (List V))) (d : DArr) (s : Nat) : List V := (d.rows mem).map fun r => r.getD s Num.zero

/-- `self.shape` (binned_statistic.py 202-207). -/
def Stat.shape (st : Stat) : List Nat := st.coords.map fun p => p.2.idx.length

/-- The number of bins. -/
def Stat.size (st : Stat) : Nat := st.shape.prod

/-- `self.variables` (binned_statistic.py 209-214). -/
def Stat.variables (st : Stat) : List String := st.data.fields.map Prod.fst

/-- What can be seen of an object: dims, edges, coords, the variables with their values, the mask, attrs and `_fields_to_sum`. -/
structure Obs (V : Type) where
  dims : List String
  edges : List (String × List V)
  coords : List (String × List V)
  cols : List (String × List V)
  mask : List Bool
  attrs : List (String × V)
  fsum : List String
  deriving DecidableEq

/-- The values found in the memory. -/
def obs {V : Type} [Num V] (w : World V) (st : Stat) : Obs V where
  dims := st.dims
  edges := st.edges.map fun p => (p.1, p.2.vals Num.zero w.nums)
  coords := st.coords.map fun p => (p.1, p.2.vals Num.zero w.nums)
  cols := st.data.fields.map fun p => (p.1, st.data.col w.cells p.2)
  mask := st.mask.vals false w.bits
  attrs := st.attrs.map fun p => (p.1, w.boxes.getD p.2 Num.zero)
  fsum := w.names.getD st.fsum []

/-- New arrays for the given values; `base` is the number of the first one. -/
def place {V : Type} (base : Nat) : List (String × List V) → List (String × Arr)
  | [] => []
  | p :: ps => (p.1, ⟨base, List.range p.2.length⟩) :: place (base + 1) ps

/-- `0.5 * (e[1:] + e[:-1])`. -/
def mids {V : Type} [Num V] (e : List V) : List V := List.zipWith Num.mid e.tail e

/-- The mask of a structured array that has just been made: not finite in any variable (binned_statistic.py 177-181, 942-945). -/
def maskOf {V : Type} [Num V] (fields : List (String × Nat)) (rows : List (List V)) : List Bool :=
  rows.map fun r => fields.any fun p => !(Num.fin (r.getD p.2 Num.zero))

/-- The coordinates: copies of those given or the middles of the bins (binned_statistic.py 165-170). -/
def coordVals {V : Type} [Num V] (w : World V) (edges : List Arr) : Option (List Arr) → List (List V)
  | none => edges.map fun e => mids (e.vals Num.zero w.nums)
  | some l => l.map fun a => a.vals Num.zero w.nums

/-- `__init__` (binned_statistic.py 142-188). The data are a structured array of the given shape, `attrs` come from the keywords. Coordinates, if
given, are given for all dimensions and have the length of the data; a dimension named twice is left out. -/
def init {V : Type} [Num V] (w : World V) (dims : List String) (edges : List Arr) (data : DArr) (dshape : List Nat) (fsum : Nat)
    (coords : Option (List Arr)) (attrs : List (String × Nat)) : Except Err (World V × Stat) :=
  if dims.length ≠ edges.length then .error .valueError
  else if (dshape.map fun n => n + 1) ≠ edges.map (fun e => e.idx.length) then .error .valueError
  else
    let cs := coordVals w edges coords
    if cs.map List.length ≠ dshape ∨ data.idx.length ≠ dshape.prod ∨ ¬ dims.Nodup then .error .leftOut
    else .ok
      ({ w with
         nums := w.nums ++ cs
         cells := w.cells ++ [data.rows w.cells]
         bits := w.bits ++ [maskOf data.fields (data.rows w.cells)] },
       ⟨dims, dims.zip edges, place w.nums.length (dims.zip cs), ⟨w.cells.length, List.range data.idx.length, data.fields, data.width⟩,
         ⟨w.bits.length, List.range data.idx.length⟩, attrs, fsum⟩)

/-- `from_state(obj.__getstate__())` (binned_statistic.py 190-200). -/
def fromState {V : Type} [Num V] (w : World V) (st : Stat) : Except Err (World V × Stat) :=
  init w st.dims (st.edges.map Prod.snd) st.data st.shape 0 (some (st.coords.map Prod.snd)) st.attrs

/-- `copy` (binned_statistic.py 245-257, 553-566): the dictionaries, the data, the mask and the list are copied, the arrays of the dictionaries
are not. -/
def copy {V : Type} (w : World V) (st : Stat) : World V × Stat :=
  ({ w with
     cells := w.cells ++ [st.data.rows w.cells]
     bits := w.bits ++ [st.mask.vals false w.bits]
     names := w.names ++ [w.names.getD st.fsum []] },
   { st with
     data := ⟨w.cells.length, List.range st.data.idx.length, st.data.fields, st.data.width⟩
     mask := ⟨w.bits.length, List.range st.mask.idx.length⟩
     fsum := w.names.length })

/-- `squeeze(dim)` for a name (binned_statistic.py 784-805). `_fields_to_sum` is copied twice, the first copy is dropped. -/
def squeeze {V : Type} (w : World V) (st : Stat) (dim : String) : Except Err (World V × Stat) :=
  match get dim st.coords with
  | none => .error .valueError
  | some c =>
    if c.idx.length ≠ 1 then .error .valueError
    else if st.dims.length ≤ 1 then .error .valueError
    else
      let r := copy w st
      .ok (r.1, { r.2 with
        dims := st.dims.filter fun d => d ≠ dim
        edges := del dim st.edges
        coords := del dim st.coords })

/-- The positions of `__slice_edges__` (binned_statistic.py 276-279). -/
def edgeIdx (l : List Nat) : List Nat :=
  match l.getLast? with
  | none => [0]
  | some k => l ++ [k + 1]

/-- `__finalize__` and `__slice_edges__` (binned_statistic.py 259-284): new arrays of edges and coordinates, the same list `_fields_to_sum`. -/
def finalize {V : Type} [Num V] (w : World V) (st : Stat) (data : DArr) (mask : Arr) (ind : List (List Nat)) : World V × Stat :=
  let es := (st.edges.zip ind).map fun p => (p.1.1, pick Num.zero (p.1.2.vals Num.zero w.nums) (edgeIdx p.2))
  let cs := es.map fun p => (p.1, mids p.2)
  ({ w with nums := w.nums ++ es.map Prod.snd ++ cs.map Prod.snd },
   { st with
     edges := place w.nums.length es
     coords := place (w.nums.length + es.length) cs
     data := data
     mask := mask })

/-- The places in a row-major array of the given shape of the elements chosen along each axis. -/
def offsets : List Nat → List (List Nat) → List Nat
  | n :: sh, l :: ls => l.flatMap fun i => (offsets sh ls).map fun j => i * sh.prod + j
  | _, _ => [0]

/-- `take` with the indices found along each axis (binned_statistic.py 717-742). -/
def take {V : Type} [Num V] (w : World V) (st : Stat) (ind : List (List Nat)) : Except Err (World V × Stat) :=
  if ind.length ≠ st.dims.length ∨ (List.zipWith (fun n l => l.any fun k => n ≤ k) st.shape ind).any id then .error .indexError
  else
    let o := offsets st.shape ind
    let w' := { w with
      cells := w.cells ++ [pick [] (st.data.rows w.cells) o]
      bits := w.bits ++ [pick false (st.mask.vals false w.bits) o] }
    .ok (finalize w' st ⟨w.cells.length, List.range o.length, st.data.fields, st.data.width⟩ ⟨w.bits.length, List.range o.length⟩ ind)

/-- `self[names]` for a list of names (binned_statistic.py 353-365): a view of the data, a copy of the mask. An empty list is no index for fields;
numpy does not take a name twice. -/
def getNames {V : Type} [Num V] (w : World V) (st : Stat) (names : List String) : Except Err (World V × Stat) :=
  if names.any fun n => !(n ∈ st.variables) then .error .keyError
  else if names = [] then .error .valueError
  else if ¬ names.Nodup then .error .valueError
  else
    let w' := { w with bits := w.bits ++ [st.mask.vals false w.bits] }
    .ok (finalize w' st { st.data with fields := names.filterMap fun n => (get n st.data.fields).map fun s => (n, s) }
      ⟨w.bits.length, List.range st.mask.idx.length⟩ (st.shape.map List.range))

/-- An index along one axis. -/
inductive Key where
  | int (i : Int)
  | sl (s : Slice)
  | lst (l : List Nat)
  deriving DecidableEq, Repr

/-- The elements an index stands for (binned_statistic.py 375-388); numpy's exception for one that is not there comes later. -/
def Key.indices (n : Nat) : Key → Except Err (List Nat)
  | .int i => .ok [(if i < 0 then i + n else i).toNat]
  | .sl s => match PySlice.indices n s with
    | none => .error .valueError
    | some (a, b, c) => .ok ((walk a b c).map Int.toNat)
  | .lst l => .ok l

def Key.isInt : Key → Bool
  | .int _ => true
  | _ => false

def Key.isLst : Key → Bool
  | .lst _ => true
  | _ => false

/-- numpy finds the elements of the index. -/
def Key.valid (n : Nat) : Key → Bool
  | .int i => decide (-(n : Int) ≤ i ∧ i < n)
  | .sl _ => true
  | .lst l => l.all fun k => k < n

/-- The elements chosen along each axis (binned_statistic.py 350-351, 374-388). -/
def indicesOf : List Nat → List Key → Except Err (List (List Nat))
  | n :: sh, k :: ks => match k.indices n with
    | .error e => .error e
    | .ok l => (indicesOf sh ks).map fun ls => l :: ls
  | sh, _ => .ok (sh.map List.range)

/-- The remaining squeezes. -/
def squeezeAll {V : Type} (w : World V) (st : Stat) : List String → Except Err (World V × Stat)
  | [] => .ok (w, st)
  | d :: ds => match squeeze w st d with
    | .error e => .error e
    | .ok r => squeezeAll r.1 r.2 ds

/-- `self[keys]` (binned_statistic.py 367-404). Integers and slices give views, a list a copy. More than one list, or a list with integers, are left
out. The empty tuple is taken for a list of names. The edges along an axis indexed by an integer are dropped, they are not computed here as numpy would for a negative one. -/
def getItem {V : Type} [Num V] (w : World V) (st : Stat) (keys : List Key) : Except Err (World V × Stat) :=
  match indicesOf st.shape keys with
  | .error e => .error e
  | .ok ind =>
    if keys = [] then .error .valueError
    else if st.dims.length < keys.length then .error .indexError
    else if (keys.filter Key.isInt).length = st.dims.length then .error .indexError
    else if 1 < (keys.filter Key.isLst).length ∨ (keys.any Key.isLst ∧ keys.any Key.isInt) then .error .leftOut
    else if (List.zipWith (fun n k => k.valid n) st.shape keys).any (fun b => !b) then .error .indexError
    else
      let o := offsets st.shape ind
      let r :=
        if keys.any Key.isLst then
          finalize { w with
              cells := w.cells ++ [pick [] (st.data.rows w.cells) o]
              bits := w.bits ++ [pick false (st.mask.vals false w.bits) o] } st
            ⟨w.cells.length, List.range o.length, st.data.fields, st.data.width⟩ ⟨w.bits.length, List.range o.length⟩ ind
        else finalize w st { st.data with idx := pick 0 st.data.idx o } { st.mask with idx := pick 0 st.mask.idx o } ind
      squeezeAll r.1 r.2 ((st.dims.zip keys).filterMap fun p => if p.2.isInt then some p.1 else none)

/-- `reindex` with the new edges and records, which have the same fields (binned_statistic.py 931-953): the other edges and coordinates are those of the old object. -/
def reindex {V : Type} [Num V] (w : World V) (st : Stat) (dim : String) (e : List V) (rows : List (List V)) : Except Err (World V × Stat) :=
  if dim ∉ st.dims then .error .valueError
  else
    let coords := put dim ⟨w.nums.length + 1, List.range (e.length - 1)⟩ st.coords
    if rows.length ≠ (coords.map fun p => p.2.idx.length).prod ∨ e = [] ∨ (rows.any fun r => r.length != st.data.width) = true then .error .leftOut
    else .ok
      ({ w with
         nums := w.nums ++ [e, mids e]
         cells := w.cells ++ [rows]
         bits := w.bits ++ [maskOf st.data.fields rows]
         names := w.names ++ [w.names.getD st.fsum []] },
       { st with
         edges := put dim ⟨w.nums.length, List.range e.length⟩ st.edges
         coords := coords
         data := ⟨w.cells.length, List.range rows.length, st.data.fields, st.data.width⟩
         mask := ⟨w.bits.length, List.range rows.length⟩
         fsum := w.names.length })

/-- `dtype.descr`: the fields and, as `none`, the gaps between them; numpy refuses fields out of order. -/
def descr (width : Nat) : Nat → List (String × Nat) → Except Err (List (Option (String × Nat)))
  | off, [] => .ok (if off < width then [none] else [])
  | off, p :: ps =>
    if p.2 < off then .error .valueError
    else match descr width (p.2 + 1) ps with
      | .error e => .error e
      | .ok l => .ok ((if off < p.2 then [none] else []) ++ some p :: l)

/-- The names numpy gives to the fields of a description: a gap becomes the field `f` with its position. -/
def fieldNames : Nat → List (Option (String × Nat)) → List String
  | _, [] => []
  | i, some p :: l => p.1 :: fieldNames (i + 1) l
  | i, none :: l => ("f" ++ toString i) :: fieldNames (i + 1) l

/-- `dtype` after `dtype.pop(i)` and with the new field (binned_statistic.py 310-317); the position is that among the names. -/
def newNames (st : Stat) (key : String) : Except Err (List String) :=
  match descr st.data.width 0 st.data.fields with
  | .error e => .error e
  | .ok l =>
    let l := if key ∈ st.variables then l.eraseIdx (st.variables.idxOf key) else l
    let names := fieldNames 0 (l ++ [some (key, 0)])
    if names.Nodup then .ok names else .error .valueError

/-- `self[key] = vals` (binned_statistic.py 303-332). -/
def setItem {V : Type} [Num V] (w : World V) (st : Stat) (key : String) (vals : List V) : Except Err (World V × Stat) :=
  if vals.length ≠ st.data.idx.length then .error .valueError
  else match newNames st key with
    | .error e => .error e
    | .ok names =>
      let cols := names.map fun n => if n = key then vals else match get n st.data.fields with
        | some s => st.data.col w.cells s
        | none => vals.map fun _ => Num.zero
      let rows := (List.range vals.length).map fun k => cols.map fun c => c.getD k Num.zero
      let mask := List.zipWith (fun m v => m || !(Num.fin v)) (st.mask.vals false w.bits) vals
      .ok ({ w with
             cells := w.cells ++ [rows]
             bits := w.bits ++ [mask] },
           { st with
             data := ⟨w.cells.length, List.range vals.length, names.zip (List.range names.length), names.length⟩
             mask := ⟨w.bits.length, List.range vals.length⟩ })

/-- `rename_variable` (binned_statistic.py 568-592): another type for the same memory. -/
def rename (st : Stat) (old new : String) : Except Err Stat :=
  if old ∉ st.variables then .error .valueError
  else
    let names := st.variables.set (st.variables.idxOf old) new
    if names.Nodup then .ok { st with data := { st.data with fields := names.zip (st.data.fields.map Prod.snd) } }
    else .error .valueError

/-- What a user does with the objects. The arguments are the numbers of objects, of arrays in memory and of lists. -/
inductive Op (V : Type) where
  | array (l : List V)
  | records (rows : List (List V))
  | list (l : List String)
  | box (v : V)
  | init (dims : List String) (edges : List Arr) (data : DArr) (dshape : List Nat) (fsum : Nat) (attrs : List (String × Nat))
  | fromState (i : Nat)
  | copy (i : Nat)
  | squeeze (i : Nat) (dim : String)
  | take (i : Nat) (ind : List (List Nat))
  | getNames (i : Nat) (names : List String)
  | getItem (i : Nat) (keys : List Key)
  | reindex (i : Nat) (dim : String) (e : List V) (rows : List (List V))
  | setItem (i : Nat) (key : String) (vals : List V)
  | rename (i : Nat) (old new : String)
  | writeVar (i : Nat) (name : String) (p : Nat) (v : V)
  | writeMask (i : Nat) (p : Nat) (b : Bool)
  | writeEdge (i : Nat) (dim : String) (p : Nat) (v : V)
  | writeCoord (i : Nat) (dim : String) (p : Nat) (v : V)
  | setAttr (i : Nat) (k : String) (v : V)
  | mutAttr (i : Nat) (k : String) (v : V)
  | appendSum (i : Nat) (name : String)

/-- `array[p] = v` in place. -/
def poke {α : Type} (mem : List (List α)) (a : Arr) (p : Nat) (v : α) : Except Err (List (List α)) :=
  match a.idx[p]? with
  | none => .error .indexError
  | some k => .ok (mem.modify a.buf fun l => l.set k v)

/-- `self[name][p] = v`: the field is a view of the records. -/
def pokeVar {V : Type} (mem : List (List (List V))) (d : DArr) (name : String) (p : Nat) (v : V) : Except Err (List (List (List V))) :=
  match get name d.fields with
  | none => .error .keyError
  | some s => match d.idx[p]? with
    | none => .error .indexError
    | some k => .ok (mem.modify d.buf fun l => l.modify k fun r => r.set s v)

/-- A new object is added to the world. -/
def add {V : Type} (r : Except Err (World V × Stat)) : Except Err (World V) :=
  r.map fun r => { r.1 with stats := r.1.stats ++ [r.2] }

/-- Object `i` is given new attributes. -/
def update {V : Type} (i : Nat) (r : Except Err (World V × Stat)) : Except Err (World V) :=
  r.map fun r => { r.1 with stats := r.1.stats.set i r.2 }

/-- Something is done with object `i`. -/
def withStat {V : Type} (w : World V) (i : Nat) (f : Stat → Except Err (World V)) : Except Err (World V) :=
  match w.stats[i]? with
  | none => .error .noObject
  | some st => f st

/-- The arguments of `__init__` are arrays in memory, lists and values; the names of the fields and their places are distinct. -/
def known {V : Type} (w : World V) (edges : List Arr) (data : DArr) (fsum : Nat) (attrs : List (String × Nat)) : Bool :=
  (edges.all fun e => e.buf < w.nums.length && e.idx.all fun k => k < (w.nums.getD e.buf []).length) &&
  (data.buf < w.cells.length && (data.idx.all fun k => k < (w.cells.getD data.buf []).length) &&
    ((w.cells.getD data.buf []).all fun r => r.length == data.width) && (data.fields.all fun p => p.2 < data.width) &&
    decide ((data.fields.map Prod.fst).Nodup) && decide ((data.fields.map Prod.snd).Nodup)) &&
  fsum < w.names.length && attrs.all fun p => p.2 < w.boxes.length

/-- One statement; an exception leaves the world as it is. -/
def step {V : Type} [Num V] (w : World V) : Op V → Except Err (World V)
  | .array l => .ok { w with nums := w.nums ++ [l] }
  | .records rows => .ok { w with cells := w.cells ++ [rows] }
  | .list l => .ok { w with names := w.names ++ [l] }
  | .box v => .ok { w with boxes := w.boxes ++ [v] }
  | .init dims edges data dshape fsum attrs =>
    if known w edges data fsum attrs then add (init w dims edges data dshape fsum none attrs) else .error .noObject
  | .fromState i => withStat w i fun st => add (fromState w st)
  | .copy i => withStat w i fun st => add (.ok (copy w st))
  | .squeeze i dim => withStat w i fun st => add (squeeze w st dim)
  | .take i ind => withStat w i fun st => add (take w st ind)
  | .getNames i names => withStat w i fun st => add (getNames w st names)
  | .getItem i keys => withStat w i fun st => add (getItem w st keys)
  | .reindex i dim e rows => withStat w i fun st => add (reindex w st dim e rows)
  | .setItem i key vals => withStat w i fun st => update i (setItem w st key vals)
  | .rename i old new => withStat w i fun st => update i ((rename st old new).map fun s => (w, s))
  | .writeVar i name p v => withStat w i fun st => (pokeVar w.cells st.data name p v).map fun m => { w with cells := m }
  | .writeMask i p b => withStat w i fun st => (poke w.bits st.mask p b).map fun m => { w with bits := m }
  | .writeEdge i dim p v => withStat w i fun st => match get dim st.edges with
    | none => .error .keyError
    | some a => (poke w.nums a p v).map fun m => { w with nums := m }
  | .writeCoord i dim p v => withStat w i fun st => match get dim st.coords with
    | none => .error .keyError
    | some a => (poke w.nums a p v).map fun m => { w with nums := m }
  | .setAttr i k v => withStat w i fun st =>
    update i (.ok ({ w with boxes := w.boxes ++ [v] }, { st with attrs := put k w.boxes.length st.attrs }))
  | .mutAttr i k v => withStat w i fun st => match get k st.attrs with
    | none => .error .keyError
    | some b => .ok { w with boxes := w.boxes.set b v }
  | .appendSum i name => withStat w i fun st => .ok { w with names := w.names.modify st.fsum fun l => l ++ [name] }

/-- A program: statements that fail are caught and passed over. -/
def run {V : Type} [Num V] (w : World V) : List (Op V) → World V
  | [] => w
  | o :: os => match step w o with
    | .ok w' => run w' os
    | .error _ => run w os

end NBK.StatObj
