import Verif.Binned.Array
import Verif.PySlice.Basic
import Mathlib.Data.Rat.Floor

/-!
# Model of `BinnedStatistic` (nbodykit/binned_statistic.py)

The dictionaries `edges` and `coords`, keyed by dimension, are lists in the order of `dims` (the names are distinct). Edges and
coordinates are rational. A variable is an integer or a floating point column; complex ones are left out. The metadata is any type.
-/
namespace NBK.Binned
open NBK.PySlice

/-- A named field of the structured array. -/
structure Col where
  name : String
  int : Bool
  vals : List Val
  deriving DecidableEq

/-- A `BinnedStatistic`. -/
structure BS (A : Type) where
  dims : List String
  edges : List (List ℚ)
  coords : List (List ℚ)
  data : List Col
  mask : List Bool
  attrs : A
  fts : List String
  deriving DecidableEq

variable {A : Type}

/-- `shape` (binned_statistic.py 201-206). -/
def BS.shape (b : BS A) : List Nat := b.coords.map List.length

/-- Bin centers (binned_statistic.py 167, 282). -/
def centers (e : List ℚ) : List ℚ := List.zipWith (fun lo hi => (lo + hi) / 2) e e.tail

/-- The mask of the bins where a variable is not finite (binned_statistic.py 174-176, 940-942). -/
def maskOf (size : Nat) (data : List Col) : List Bool :=
  (List.range size).map fun o => data.any fun c => !(c.vals.getD o .nan).isFinite

/-- `__init__` (binned_statistic.py 144-185). `dshape` is the shape of the structured array. Coordinates of another length than the
bins, which numpy may or may not broadcast, are an error. -/
def init (dims : List String) (edges : List (List ℚ)) (dshape : List Nat) (data : List Col) (fts : List String)
    (coords : Option (List (Option (List ℚ)))) (attrs : A) : Except Err (BS A) :=
  if dims.length ≠ edges.length then .error .valueError
  else if dshape ≠ edges.map (fun e => e.length - 1) then .error .valueError
  else
    let cs := edges.mapIdx fun i e => (coords.bind fun l => (l[i]?).join).getD (centers e)
    if cs.map List.length ≠ dshape then .error .valueError
    else .ok ⟨dims, edges, cs, data, maskOf dshape.prod data, attrs, fts⟩

/-- What `__getstate__` returns (binned_statistic.py 193-199); the shape is that of the data. -/
structure State (A : Type) where
  dims : List String
  edges : List (List ℚ)
  coords : List (List ℚ)
  dshape : List Nat
  data : List Col
  attrs : A

/-- `__getstate__` (binned_statistic.py 193-199). -/
def getstate (b : BS A) : State A := ⟨b.dims, b.edges, b.coords, b.shape, b.data, b.attrs⟩

/-- `from_state` (binned_statistic.py 187-191). -/
def fromState (s : State A) : Except Err (BS A) := init s.dims s.edges s.dshape s.data [] (some (s.coords.map some)) s.attrs

/-- The parameters of `__init__` before `**kwargs` (binned_statistic.py 144). -/
def initParams : List String := ["self", "dims", "edges", "data", "fields_to_sum", "coords"]

/-- The keyword `fields_to_sum` that `from_json` finds in the metadata; a keyword given twice is a TypeError (binned_statistic.py 497-502).
`asList` reads a value as a list of names. -/
def kwFts {V : Type} (asList : V → Option (List String)) (attrs : List (String × V)) : Except Err (List String) :=
  if attrs.any (fun p => p.1 ∈ ["self", "dims", "edges", "data", "coords"]) then .error .typeError
  else match attrs.find? (fun p => p.1 = "fields_to_sum") with
    | none => .ok []
    | some p => match asList p.2 with
      | some l => .ok l
      | none => .error .notModelled

/-- `from_json` (binned_statistic.py 445-502) on a decoded state, with the default arguments: the metadata are keywords. -/
def fromJson {V : Type} (asList : V → Option (List String)) (s : State (List (String × V))) : Except Err (BS (List (String × V))) := do
  let fts ← kwFts asList s.attrs
  init s.dims s.edges s.dshape s.data fts (some (s.coords.map some)) (s.attrs.filter fun p => p.1 ≠ "fields_to_sum")

/-- An index into an array of length `n`: negative ones count from the end. -/
def wrap (n : Nat) (i : Int) : Except Err Nat :=
  if 0 ≤ i ∧ i < n then .ok i.toNat
  else if i < 0 ∧ 0 ≤ i + n then .ok (i + n).toNat
  else .error .indexError

/-- The indices of the edges of the bins `idx` (binned_statistic.py 277-280). -/
def edgeIdx (idx : List Int) : List Int :=
  match idx.getLast? with
  | some l => idx ++ [l + 1]
  | none => [0]

/-- `edges[dim][idx]` of `__slice_edges__` (binned_statistic.py 276-281). -/
def sliceEdges (e : List ℚ) (idx : List Int) : Except Err (List ℚ) :=
  (edgeIdx idx).mapM fun i => match wrap e.length i with
    | .ok k => .ok (e.getD k 0)
    | .error x => .error x

/-- `__finalize__` (binned_statistic.py 258-267) of data that has the shape given by the indices. -/
def finalize (b : BS A) (data : List Col) (mask : List Bool) (indices : List (List Int)) : Except Err (BS A) := do
  let edges ← (b.edges.zip indices).mapM fun p => sliceEdges p.1 p.2
  pure ⟨b.dims, edges, edges.map centers, data, mask, b.attrs, b.fts⟩

/-- The data at the indices `idx` of every axis (binned_statistic.py 734-739). -/
def takeAll {α : Type} (d : α) (shape : List Nat) (idx : List (List Nat)) (a : List α) : List α :=
  ((List.range shape.length).foldl (fun (st : List Nat × List α) i =>
    (st.1.set i (idx.getD i []).length, takeAxis d st.1 i (idx.getD i []) st.2)) (shape, a)).2

/-- A selector of one axis in `take`: a boolean mask or a list of indices. -/
inductive Sel where
  | bools (m : List Bool)
  | ints (l : List Int)

/-- The indices kept by a selector on an axis of length `n` as a boolean mask (binned_statistic.py 718-728). -/
def Sel.mask (n : Nat) : Sel → Except Err (List Bool)
  | .bools m => if m.length = n then .ok m else .error .valueError
  | .ints l => do
    let ks ← l.mapM (wrap n)
    pure ((List.range n).map fun k => decide (k ∈ ks))

/-- `mask.all(axis=...)` over all axes but `ax` (binned_statistic.py 709-714). -/
def allAxis (shape : List Nat) (ax : Nat) (m : List Bool) : List Bool :=
  let pre := (shape.take ax).prod
  let n := shape.getD ax 1
  let post := (shape.drop (ax + 1)).prod
  (List.range n).map fun j => (List.range pre).all fun p => (List.range post).all fun q => m.getD ((p * n + j) * post + q) true

/-- The combined boolean selection of the axis `ax` (binned_statistic.py 700-728). -/
def axisMask (b : BS A) (masks : List (List Bool)) (sels : List (String × Sel)) (ax : Nat) : Except Err (List Bool) := do
  let n := b.shape.getD ax 0
  let m0 := allAxis b.shape ax ((List.range b.shape.prod).map fun o => masks.all fun m => m.getD o true)
  let ms ← (sels.filter fun s => b.dims.idxOf s.1 = ax).mapM fun s => s.2.mask n
  pure ((List.range n).map fun j => m0.getD j true && ms.all fun m => m.getD j true)

/-- `take` (binned_statistic.py 664-743). Masks that have another shape are an error. -/
def take (b : BS A) (masks : List (List Bool)) (sels : List (String × Sel)) : Except Err (BS A) := do
  if masks.any (fun m => m.length ≠ b.shape.prod) then throw .valueError
  if sels.any (fun s => s.1 ∉ b.dims) then throw .valueError
  let ms ← (List.range b.dims.length).mapM (axisMask b masks sels)
  let idx := ms.map fun m => (List.range m.length).filter fun j => m.getD j false
  finalize b (b.data.map fun c => { c with vals := takeAll .nan b.shape idx c.vals }) (takeAll false b.shape idx b.mask)
    (idx.map fun l => l.map Int.ofNat)

/-- `squeeze` of a named dimension (binned_statistic.py 779-805). -/
def squeeze (b : BS A) (dim : String) : Except Err (BS A) :=
  let i := b.dims.idxOf dim
  if i ≥ b.dims.length then .error .valueError
  else if b.shape.getD i 0 ≠ 1 then .error .valueError
  else if b.dims.length ≤ 1 then .error .valueError
  else .ok { b with dims := b.dims.eraseIdx i, edges := b.edges.eraseIdx i, coords := b.coords.eraseIdx i }

/-- An index of one dimension in `__getitem__`. -/
inductive Key where
  | int (i : Int)
  | list (l : List Int)
  | slice (s : Slice)

/-- The list of indices of one dimension (binned_statistic.py 381-391). -/
def Key.indices (n : Nat) : Key → Except Err (List Int)
  | .int i => .ok [i]
  | .list l => .ok l
  | .slice s => match PySlice.indices n s with
    | none => .error .valueError
    | some (a, b, c) => .ok (walk a b c)

def Key.isInt : Key → Bool
  | .int _ => true
  | _ => false

def Key.isList : Key → Bool
  | .list _ => true
  | _ => false

/-- `__getitem__` with indices (binned_statistic.py 354-404). numpy takes the data of integers and slices, or of slices and a single list, axis
by axis; other mixtures of lists are not in the model. -/
def getitem (b : BS A) (keys : List Key) : Except Err (BS A) := do
  if keys.length > b.dims.length then throw .indexError
  if keys.any Key.isList && ((keys.filter Key.isList).length > 1 || keys.any Key.isInt) then throw .notModelled
  let keys' := keys ++ List.replicate (b.dims.length - keys.length) (Key.slice ⟨none, none, none⟩)
  let indices ← (b.shape.zip keys').mapM fun p => p.2.indices p.1
  let squeezed := ((b.dims.zip keys').filter fun p => p.2.isInt).map Prod.fst
  if squeezed.length = b.dims.length then throw .indexError
  let idx ← (b.shape.zip indices).mapM fun p => p.2.mapM (wrap p.1)
  let r ← finalize b (b.data.map fun c => { c with vals := takeAll .nan b.shape idx c.vals }) (takeAll false b.shape idx b.mask) indices
  squeezed.foldlM squeeze r

/-- `__getitem__` with a list of variables (binned_statistic.py 363-371). -/
def getVars (b : BS A) (names : List String) : Except Err (BS A) :=
  if names.any (fun v => v ∉ b.data.map Col.name) then .error .keyError
  else finalize b (names.filterMap fun v => b.data.find? fun c => c.name = v) b.mask (b.shape.map fun n => (List.range n).map Int.ofNat)

/-- `__setitem__` (binned_statistic.py 304-332). -/
def setitem (b : BS A) (key : String) (int : Bool) (vals : List Val) : Except Err (BS A) :=
  if vals.length ≠ b.shape.prod then .error .valueError
  else .ok { b with
    data := b.data.eraseP (fun c => c.name = key) ++ [⟨key, int, vals⟩]
    mask := (List.range b.shape.prod).map fun o => b.mask.getD o false || !(vals.getD o .nan).isFinite }

/-- `_get_index` (binned_statistic.py 406-423) with an exact match. -/
def getIndex (coords : List ℚ) (v : ℚ) : Except Err Nat :=
  if coords.idxOf v < coords.length then .ok (coords.idxOf v) else .error .indexError

/-- `numpy.round` to the nearest integer, halves to even. -/
def roundEven (q : ℚ) : Int :=
  let f := q.floor
  if q - f < 1 / 2 then f else if q - f > 1 / 2 then f + 1 else if f % 2 = 0 then f else f + 1

/-- `numpy.allclose` of two numbers. -/
def allclose (a b : ℚ) : Bool := decide (|a - b| ≤ 1 / 10 ^ 8 + 1 / 10 ^ 5 * |b|)

/-- `numpy.linspace(a, b, m + 1)`. -/
def linspace (a b : ℚ) (m : Nat) : List ℚ := (List.range (m + 1)).map fun (k : Nat) => if k = 0 then a else a + k * ((b - a) / m)

/-- The argument `weights` of `reindex`: an array is given with its dtype. -/
inductive Weights where
  | none
  | name (s : String)
  | array (int : Bool) (vals : List Val)

/-- Assignment of a floating point value to a field (binned_statistic.py 937): integer fields truncate; NaN and infinities become the
smallest integer. -/
def store (int : Bool) (v : Val) : Val :=
  if int then
    match v with
    | .fin q => .fin (if q < 0 then ⌈q⌉ else ⌊q⌋ : Int)
    | _ => .fin (-2 ^ 63 : Int)
  else v

/-- The weights as an array (binned_statistic.py 904-907). An array of another size than the data is an error. -/
def getWeights (b : BS A) : Weights → Except Err (Option (Bool × List Val))
  | .none => .ok .none
  | .name s => match b.data.find? fun c => c.name = s with
    | .some c => .ok (some (c.int, c.vals))
    | .none => .error .valueError
  | .array int vals => if vals.length = b.shape.prod then .ok (some (int, vals)) else .error .valueError

/-- The re-binned variable (binned_statistic.py 930-937). `ndarray /= weights` raises for two integer arrays. -/
def rebinCol (sum : List String) (old new : List Nat) (w : Option (Bool × List Val)) (c : Col) : Except Err Col :=
  let summed := decide (c.name ∈ sum)
  let op := if w.isSome || summed then nansum else nanmean
  let w' := if summed then none else w
  match w' with
  | none => do pure { c with vals := (← binNdarray op old new c.vals none).map (store c.int) }
  | some (wi, wv) => if wi && c.int then .error .typeError else do
      pure { c with vals := (← binNdarray op old new c.vals (some wv)).map (store c.int) }

/-- `reindex` (binned_statistic.py 829-952) where `sum` is the list `fields_to_sum` after line 883. Indexing with a list of slices
(`weights[sl]`, line 921) works like a tuple only in older versions of numpy (`oldNumpy`). Spacings that vanish or have the wrong sign
lead to an error in later lines. -/
def reindex (oldNumpy : Bool) (b : BS A) (dim : String) (spacing : ℚ) (weights : Weights) (force : Bool) (sum : List String) :
    Except Err (BS A) := do
  let i := b.dims.idxOf dim
  if i ≥ b.dims.length then throw .valueError
  let cs := b.coords.getD i []
  let n := cs.length
  if n < 2 then throw .indexError
  let old := cs.getD 1 0 - cs.getD 0 0
  let factor := roundEven (spacing / old)
  if factor ≤ 1 then throw .valueError
  if !allclose (old * factor) spacing && !force then throw .valueError
  let w ← getWeights b weights
  let f := factor.toNat
  let leftover := n % f
  if leftover ≠ 0 && !force then throw .valueError
  if leftover ≠ 0 && w.isSome && !oldNumpy then throw .indexError
  let kept := n - leftover
  let cut := fun (a : List Val) => takeAxis .nan b.shape i (List.range kept) a
  let edges := (b.edges.getD i []).take ((b.edges.getD i []).length - leftover)
  let m := kept / f
  let newEdges := linspace (edges.getD 0 0) (edges.getLastD 0) m
  let data ← b.data.mapM fun c =>
    rebinCol sum (b.shape.set i kept) (b.shape.set i m) (w.map fun p => (p.1, cut p.2)) { c with vals := cut c.vals }
  pure { b with
    edges := b.edges.set i newEdges
    coords := b.coords.set i (centers newEdges)
    data := data
    mask := maskOf (b.shape.set i m).prod data }

/-- The list object that is the default value of `fields_to_sum` (binned_statistic.py 835), which lives as long as the class. -/
structure World where
  dflt : List String

/-- A call of `reindex`: `arg` is the list object of the caller, if one is given. Returns the default list and the caller's list after the
call (binned_statistic.py 882-883). -/
def reindexCall (oldNumpy : Bool) (world : World) (b : BS A) (dim : String) (spacing : ℚ) (weights : Weights) (force : Bool)
    (arg : Option (List String)) : World × Option (List String) × Except Err (BS A) :=
  if dim ∉ b.dims then (world, arg, .error .valueError) else
  match arg with
  | none => (⟨world.dflt ++ b.fts⟩, none, reindex oldNumpy b dim spacing weights force (world.dflt ++ b.fts))
  | some l => (world, some (l ++ b.fts), reindex oldNumpy b dim spacing weights force (l ++ b.fts))

/-- `average` (binned_statistic.py 807-827): `sel` of the first coordinate of the new bins, which squeezes the dimension. -/
def averageCall (oldNumpy : Bool) (world : World) (b : BS A) (dim : String) (weights : Weights) (force : Bool)
    (arg : Option (List String)) : World × Option (List String) × Except Err (BS A) :=
  if dim ∉ b.dims then (world, arg, .error .keyError) else
  let e := b.edges.getD (b.dims.idxOf dim) []
  let r := reindexCall oldNumpy world b dim (e.getLastD 0 - e.getD 0 0) weights force arg
  (r.1, r.2.1, do
    let t ← r.2.2
    let c := t.coords.getD (t.dims.idxOf dim) []
    let k ← getIndex c (c.getD 0 0)
    if t.dims.length = 1 then throw .indexError
    let s ← take t [] [(dim, .ints [(k : Int)])]
    squeeze s dim)

end NBK.Binned
