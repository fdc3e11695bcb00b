import Verif.PySlice.Basic
import Verif.Gather.Model

/-!
# Model of catalog slicing: `_get_slice` and `gslice` (nbodykit/base/catalog.py)

A catalog on one rank is its size and its non-default columns.  Indexing of a column is numpy/dask indexing.
The decoupling copy of small subsets (312-316) does not change values and is dropped.
-/
namespace NBK.Slicing
open NBK.PySlice

/-- Exceptions. `undefined` marks a use of memory nobody has written. -/
inductive Err where
  | keyError | valueError | indexError | assertionError | undefined
  deriving DecidableEq, Repr

/-- The accepted non-string indices. -/
inductive Index where
  | ellipsis
  | slice (s : Slice)
  | mask (m : List Bool)
  | ints (l : List Int)
  deriving DecidableEq, Repr

/-- Python floor division. -/
def floordiv (a b : Int) : Int := Int.fdiv a b

/-- The size of the subset as computed by the code (catalog.py 288-309). -/
def newSize (size : Nat) : Index → Except Err Nat
  | .ellipsis => .ok size
  | .slice s =>
    match indices size s with
    | none => .error .valueError
    | some (start, stop, step) =>
      .ok (max 0 (floordiv (stop - start + (step - (if step > 0 then 1 else -1))) step)).toNat
  | .mask m => if m.length ≠ size then .error .keyError else .ok (m.count true)
  | .ints l => .ok l.length

/-- numpy integer indexing: negative numbers count from the end, out of range is an IndexError. -/
def takeInts {α : Type} (l : List α) (ps : List Int) : Except Err (List α) :=
  ps.mapM fun (p : Int) =>
    let q : Int := if p < 0 then p + l.length else p
    if q < 0 then .error .indexError
    else match l[q.toNat]? with
      | some x => .ok x
      | none => .error .indexError

/-- numpy boolean indexing. -/
def takeMask {α : Type} (l : List α) (m : List Bool) : Except Err (List α) :=
  if m.length ≠ l.length then .error .indexError
  else .ok ((l.zip m).filterMap fun x => if x.2 then some x.1 else none)

/-- `self[col][index]` (catalog.py 312). -/
def colIndex {α : Type} (l : List α) : Index → Except Err (List α)
  | .ellipsis => .ok l
  | .slice s => match pySlice l s with
    | none => .error .valueError
    | some r => .ok r
  | .mask m => takeMask l m
  | .ints ps => takeInts l ps

/-- A catalog on one rank: `size` and columns (non-default ones). -/
structure Cat (α : Type) where
  size : Nat
  cols : List (String × List α)

/-- `_from_columns` (catalog.py 907-945): every column is set through `__setitem__`, which asserts the length. -/
def fromColumns {α : Type} (size : Nat) (cols : List (String × List α)) : Except Err (Cat α) :=
  if cols.any (fun c => c.2.length != size) then .error .assertionError else .ok ⟨size, cols⟩

/-- `_get_slice(index)` (catalog.py 275-325). -/
def getSlice {α : Type} (c : Cat α) (ix : Index) : Except Err (Cat α) :=
  if ix = .ellipsis then .ok c else do
  let size ← newSize c.size ix
  let cols ← c.cols.mapM fun p => do
    let r ← colIndex p.2 ix
    pure (p.1, r)
  fromColumns size cols

/-- `index = zeros(csize, bool); index[slice(start, stop, end)] = True` (catalog.py 1040-1041). -/
def globalMask (n : Nat) (s : Slice) : Except Err (List Bool) :=
  match indices n s with
  | none => .error .valueError
  | some (a, b, c) => .ok ((List.range n).map fun j : Nat => decide ((j : Int) ∈ walk a b c))

/-- Read a received buffer; fails if a part of it was never written. -/
def readAll {α : Type} (b : List (Option α)) : Except Err (List α) :=
  b.mapM fun x => match x with
    | some y => .ok y
    | none => .error .undefined

/-- Errors of the Gather model. -/
def lift {α : Type} : Except NBK.Gather.Err α → Except Err α
  | .ok x => .ok x
  | .error _ => .error .valueError

/-- `ScatterArray(data, comm, root=0, counts=counts)` with the data on rank 0 of `P` ranks. -/
def scatter0 {α : Type} (P : Nat) (counts : Option (List Nat)) (rows : List α) : Except Err (List (List α)) := do
  let out ← lift (NBK.Gather.scatter (δ := Unit) (fun _ => false) 0 counts
    (.arr ⟨(), [], rows⟩ :: List.replicate (P - 1) .none))
  out.mapM readAll

/-- `GatherArray(data, comm, root=0)`, the result on rank 0. -/
def gather0 {α : Type} (D : List (List α)) : Except Err (List α) := do
  let out ← lift (NBK.Gather.gather (δ := Unit) (fun _ => false) (.rank 0) (D.map fun d => ⟨(), [], d⟩))
  match out with
  | some b :: _ => readAll b
  | _ => .error .undefined

/-- `gslice(start, stop, end, redistribute)` (catalog.py 1013-1076) on all ranks; a row stands for the values of
all columns (each column is treated in the same way, 1066-1069). -/
def gslice {α : Type} (D : List (List α)) (s : Slice) (redistribute : Bool) : Except Err (List (List α)) := do
  let index ← globalMask (D.map List.length).sum s
  let index ← scatter0 D.length (some (D.map List.length)) index
  let subset ← (D.zip index).mapM fun x => do
    let c ← getSlice (α := α) ⟨x.1.length, [("col", x.1)]⟩ (.mask x.2)
    pure ((c.cols.map (·.2)).flatten)
  if !redistribute then return subset
  let all ← gather0 subset
  scatter0 D.length none all

end NBK.Slicing
