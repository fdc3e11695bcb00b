import Verif.Fof.Model
import Verif.Dist.Model

/-!
# Model of `_assign_labels` (nbodykit/algorithms/fof.py 197-287)

`DistributedArray.sort` is `mpsort.sort` with any order of equal keys; `unique_labels` and `bincount` are those of the topic `Dist`.
-/
namespace NBK.Fof
open NBK.Dist (uniqueLabels bincount localCounts)

/-- A row of `data`: `(origind, fofid)`. -/
abbrev Rec := Nat × Nat

/-- The contract of `mpsort.sort` on the global array: the same rows, in an order which sorts the keys. -/
structure IsSort (srt : (Rec → Nat) → List Rec → List Rec) : Prop where
  perm : ∀ key l, (srt key l).Perm l
  sorted : ∀ key l, (srt key l).Pairwise fun a b => key a ≤ key b

/-- `data.sort(key)`: the local sizes stay. -/
def sortBy (srt : (Rec → Nat) → List Rec → List Rec) (key : Rec → Nat) (D : List (List Rec)) : List (List Rec) :=
  cut (D.map List.length) (srt key D.flatten)

/-- `data` (fof.py 225-233). -/
def initial (minid : List (List Nat)) : List (List Rec) :=
  minid.mapIdx fun r l => l.mapIdx fun i x => (((minid.map List.length).take r).sum + i, x)

/-- `numpy.repeat(small, Nlocal)` on one rank (fof.py 248); the lengths must agree. -/
def npRepeat (small : List Bool) (n : List Nat) : Except Err (List Bool) :=
  if small.length = n.length then .ok ((small.zip n).flatMap fun a => List.replicate a.2 a.1) else .error .valueError

/-- `label += 1; label[mask] = 0` on one rank (fof.py 251-252); the mask must have the length of the array. -/
def maskLabels (label : List Nat) (mask : List Bool) : Except Err (List Nat) :=
  if mask.length = label.length then .ok ((label.zip mask).map fun a => if a.2 then 0 else a.1 + 1) else .error .indexError

/-- `label` as items with weight one, for `bincount`. -/
def items (label : List (List Nat)) : List (List (Nat × Nat)) := label.map fun l => l.map fun x => (x, 1)

/-- The counts of all labels: `label.bincount()` and `label.bincount(local=True)` (fof.py 241-246). -/
def countBins (label : List (List Nat)) : Except Err (List (List Nat) × List (List Nat)) :=
  match bincount true (items label), ((items label).mapIdx fun r l => localCounts (items label) r l).mapM id with
  | some N, some NL => .ok (N, NL)
  | _, _ => .error .valueError

/-- Lines 241-254 of fof.py: the groups with at most `thresh` members get `fofid` 0, the others one more than their label.
Returns the rows and `small` of all ranks. -/
def dropSmall (thresh : Nat) (D : List (List Rec)) : Except Err (List (List Rec) × List (List Bool)) := do
  let label := uniqueLabels (D.map fun d => d.map Prod.snd)
  let (N, NL) ← countBins label
  let small := N.map fun n => n.map fun c => decide (c ≤ thresh)
  let mask ← (small.zip NL).mapM fun a => npRepeat a.1 a.2
  let new ← (label.zip mask).mapM fun a => maskLabels a.1 a.2
  pure ((D.zip new).map fun a => (a.1.zip a.2).map fun b => (b.1.1, b.2), small)

/-- `data['fofid'].local[:] = unique_labels()`, shifted by one if no group was dropped (fof.py 259-265). -/
def renumber (anysmall : Bool) (D : List (List Rec)) : List (List Rec) :=
  (D.zip (uniqueLabels (D.map fun d => d.map Prod.snd))).map fun a =>
    (a.1.zip a.2).map fun b => (b.1.1, if anysmall then b.2 else b.2 + 1)

/-- The largest label of a rank, `label.max()`: a ValueError without particles. -/
def localMax (l : List Nat) : Except Err Nat :=
  match reduce max l with
  | some m => .ok m
  | none => .error .valueError

/-- `P[arg] = arange(len(arg)) + 1` (fof.py 284-285). -/
def assignP (nhalo : Nat) (arg : List Nat) : List Nat :=
  (arg.zipIdx 1).foldl (fun P a => P.set a.1 a.2) (List.range nhalo)

/-- `max(comm.allgather(label.max())) + 1` (fof.py 271, 674, 722). -/
def nhalo0 (label : List (List Nat)) : Except Err Nat := do
  let m ← label.mapM localMax
  match reduce max m with
    | some x => .ok (x + 1)
    | none => .error .valueError

/-- Order the labels by size (fof.py 271-286). -/
def bySize (argsort : List Nat → List Nat) (label : List (List Nat)) : Except Err (List (List Nat)) := do
  let nhalo ← nhalo0 label
  let N := (List.range nhalo).map fun v => (label.map fun l => l.count v).sum
  let arg := (argsort N.tail).reverse.map (· + 1)
  label.mapM fun l => takeAt (assignP nhalo arg) l

/-- `_assign_labels(minid, comm, thresh)` (fof.py 197-287). -/
def assignLabels (srt : (Rec → Nat) → List Rec → List Rec) (argsort : List Nat → List Nat) (thresh : Nat)
    (minid : List (List Nat)) : Except Err (List (List Nat)) := do
  let D := sortBy srt Prod.snd (initial minid)
  let (D, small) ← dropSmall thresh D
  let D := sortBy srt Prod.snd D
  let anysmall := small.any fun s => s.any id
  let D := sortBy srt Prod.fst (renumber anysmall D)
  bySize argsort (D.map fun d => d.map Prod.snd)

end NBK.Fof
