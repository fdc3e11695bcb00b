import Mathlib.Data.List.Dedup
import Mathlib.Algebra.BigOperators.Group.List.Basic

/-!
# Model of `DistributedArray` and `LinearTopology` (nbodykit/utils.py 534-855) and of the even row split of file catalogs

A distributed array is `D : List (List α)`, the local arrays of all ranks in rank order.
`EmptyRank` is `none`.  Not modelled: dtype detection (`_find_dtype`, which fails with StopIteration if all
ranks are empty), shapes beyond the first axis.
-/
namespace NBK.Dist

/-- `LinearTopology.heads()` (utils.py 782-797). -/
def heads {α : Type} (D : List (List α)) : List (Option α) := D.map List.head?

/-- `LinearTopology.tails()` (utils.py 799-812). -/
def tails {α : Type} (D : List (List α)) : List (Option α) := D.map List.getLast?

/-- `LinearTopology.prev()` on rank `r` (utils.py 814-834): search backwards for a non-empty rank. -/
def prev {α : Type} (D : List (List α)) (r : Nat) : Option α :=
  (((tails D).take r).reverse).findSome? id

/-- `LinearTopology.next()` on rank `r` (utils.py 836-855): search forwards for a non-empty rank. -/
def next {α : Type} (D : List (List α)) (r : Nat) : Option α :=
  ((heads D).drop (r + 1)).findSome? id

/-- The inverse of `numpy.unique(local, return_inverse=True)`: for each element the index of its value in the
sorted array of distinct values (utils.py 668). -/
def uniqueInverse {α : Type} [LT α] [DecidableLT α] [DecidableEq α] (l : List α) : List Nat :=
  l.map fun x => ((l.filter (· < x)).dedup).length

/-- `Nunique` on rank `r` (utils.py 677-686); `junk` is `l.dedup` (sorted). -/
def nunique {α : Type} [DecidableEq α] (D : List (List α)) (r : Nat) (l : List α) : Nat :=
  match l.getLast? with
  | none => 0
  | some z => if next D r = some z then l.dedup.length - 1 else l.dedup.length

/-- `DistributedArray.unique_labels()` on all ranks (utils.py 652-689). -/
def uniqueLabels {α : Type} [LT α] [DecidableLT α] [DecidableEq α] (D : List (List α)) : List (List Nat) :=
  let nu := D.mapIdx fun r l => nunique D r l
  D.mapIdx fun r l => (uniqueInverse l).map (· + (nu.take r).sum)

/-- `numpy.bincount(x, weights)`: `ValueError` (here `none`) for negative entries, otherwise `max+1` bins
(no bins for an empty array). Entries come with their weight (1 if no weights are given). -/
def npBincount {M : Type} [AddCommMonoid M] (xs : List (Int × M)) : Option (List M) :=
  if xs.any (fun p => p.1 < 0) then none
  else
    let nbins := xs.foldr (fun p m => max (p.1.toNat + 1) m) 0
    some ((List.range nbins).map fun (v : Nat) => ((xs.filter fun p => p.1 == (v : Int)).map Prod.snd).sum)

/-- The `offset` of rank `r` (utils.py 719-729). -/
def binOffset {M : Type} (D : List (List (Nat × M))) (r : Nat) (l : List (Nat × M)) : Nat :=
  match (prev D r).map Prod.fst with
  | none => 0
  | some p =>
    match l with
    | [] => p
    | x :: _ => if p ≠ x.1 then p + 1 else p

/-- Local counts of rank `r`: `numpy.bincount(self.local - offset, weights)` (utils.py 733). -/
def localCounts {M : Type} [AddCommMonoid M] (D : List (List (Nat × M))) (r : Nat) (l : List (Nat × M)) :
    Option (List M) :=
  npBincount (l.map fun p => ((p.1 : Int) - (binOffset D r l : Int), p.2))

/-- `N[0] += x` -/
def addHead {M : Type} [AddCommMonoid M] (N : List M) (x : M) : List M := N.modifyHead (· + x)

/-- `N[-1] += x` -/
def addLast {M : Type} [AddCommMonoid M] (N : List M) (x : M) : List M := N.modify (N.length - 1) (· + x)

/-- The communication part of `bincount` on rank `r` (utils.py 738-760): `N` are the local counts of this rank,
`NN` those of all ranks before any update (the `allgather` in `heads()`/`tails()` copies). -/
def mergeCounts {M : Type} [AddCommMonoid M] (sharedEdges : Bool) (D : List (List (Nat × M)))
    (NN : List (List M)) (r : Nat) (l : List (Nat × M)) (N : List M) : List M :=
  match l.head?, l.getLast? with
  | some a, some z =>
    let fromLeft := (((tails D).zip (tails NN)).take r).filterMap fun q =>
      if q.1.map Prod.fst = some a.1 then q.2 else none
    let N1 := fromLeft.reverse.foldl addHead N
    let fromRight := (((heads D).zip (heads NN)).drop (r + 1)).filterMap fun q =>
      if q.1.map Prod.fst = some z.1 then q.2 else none
    let N2 := fromRight.foldl addLast N1
    if !sharedEdges && !fromLeft.isEmpty then N2.tail else N2
  | _, _ => N

/-- `DistributedArray.bincount(weights, shared_edges=...)` on all ranks (utils.py 691-762); `none` is a ValueError
from `numpy.bincount` on some rank. -/
def bincount {M : Type} [AddCommMonoid M] (sharedEdges : Bool) (D : List (List (Nat × M))) :
    Option (List (List M)) := do
  let NN ← (D.mapIdx fun r l => localCounts D r l).mapM id
  pure ((D.zip NN).mapIdx fun r p => mergeCounts sharedEdges D NN r p.1 p.2)

/-- First row of rank `r` when `n` rows are spread over `P` ranks: `n * r // P`
(utils.py 596 in `cempty`; source/catalog/file.py 52-53 `lstart`, `lend`). -/
def evenStart (n P r : Nat) : Nat := n * r / P

/-- `llen = n*(r+1)//P - n*r//P` (utils.py 596). Integers as in Python. -/
def llen (n P r : Nat) : Int := (n * (r + 1) / P : Nat) - (n * r / P : Nat)

/-- The length check of `cempty` (utils.py 598-600): `none` is the ValueError. -/
def cempty (n P : Nat) : Option (List Int) :=
  let ls := (List.range P).map (llen n P)
  if ls.sum = n then some ls else none

/-- Keyed elements that one rank contributes for one argument array: `go + coffset + arange(len)` and the
elements (utils.py 632-633). -/
def keyed {α : Type} (go coffset : Nat) (l : List α) : List (Nat × α) :=
  l.mapIdx fun i x => (go + coffset + i, x)

/-- `inp` on rank `r` (utils.py 626-636): loop over the arguments, `go` grows by the collective lengths. -/
def concatInp {α : Type} (r go : Nat) : List (List (List α)) → List (Nat × α)
  | [] => []
  | A :: rest =>
    (match A[r]? with
      | none => []
      | some l => keyed go ((A.map List.length).take r).sum l)
    ++ concatInp r (go + (A.map List.length).sum) rest

/-- `DistributedArray.concat(*args, localsize)` on all `P` ranks (utils.py 604-638).
`mpsort.sort(inp, orderby='index', out=out)` is modelled by its contract: the global array sorted by the key,
cut into pieces of the sizes of `out`; if these do not add up it fails (`none`). -/
def concat {α : Type} (P : Nat) (args : List (List (List α))) (localsize : Option (List Nat)) :
    Option (List (List α)) :=
  let inp := (List.range P).map fun r => concatInp r 0 args
  let sizes := match localsize with
    | some s => s
    | none => inp.map List.length
  let sorted := inp.flatten.mergeSort (fun x y => x.1 ≤ y.1)
  if sizes.sum = sorted.length then
    some ((sizes.mapIdx fun r n => (sorted.drop ((sizes.take r).sum)).take n).map (List.map Prod.snd))
  else none

end NBK.Dist
