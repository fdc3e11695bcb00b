import Verif.Comm.Basic
import Mathlib.Order.Defs.LinearOrder

/-!
# Model of the fiber assignment (nbodykit/algorithms/fibercollisions.py)

`d a b` is the distance of the objects `a` and `b` of a group (`squareform(pdist(...))`), in any linear order; `R` is the collision
radius. `numpy.random.choice` is an arbitrary function `pick`, which may depend on the number of objects left.
-/
namespace NBK.Fiber

/-- The exceptions of interest. -/
inductive Err where
  | valueError | indexError
  deriving DecidableEq, Repr

variable {α : Type} [LinearOrder α]

/-- `collisions[a, b]` (fibercollisions.py 252-254); the diagonal is set to infinity. -/
def collides (d : Nat → Nat → α) (R : α) (a b : Nat) : Bool := decide (a ≠ b) && decide (d a b ≤ R)

/-- `n_collisions` (fibercollisions.py 257), the sum of a column. -/
def nColl (d : Nat → Nat → α) (R : α) (group : List Nat) (a : Nat) : Nat := (group.filter fun b => collides d R b a).length

/-- `n_other` (fibercollisions.py 240-241, 260). -/
def nOther (d : Nat → Nat → α) (R : α) (group : List Nat) (a : Nat) : Nat :=
  ((group.filter fun b => collides d R b a).map (nColl d R group)).sum

/-- The objects among which the random choice is made (fibercollisions.py 264-267): the most collisions, then the least `n_other`. -/
def cands (d : Nat → Nat → α) (R : α) (group : List Nat) : List Nat :=
  let m := (group.map (nColl d R group)).foldl max 0
  let idx := group.filter fun a => nColl d R group a = m
  idx.filter fun a => some (nOther d R group a) = (idx.map (nOther d R group)).min?

/-- The loop of `_assign_multiplets` (fibercollisions.py 248-276): the collided objects. Each pass removes an object, hence the fuel. -/
def loop (d : Nat → Nat → α) (R : α) (pick : Nat → List Nat → Nat) : Nat → List Nat → List Nat → List Nat
  | 0, _, c => c
  | f + 1, group, c =>
    if group.length > 1 then
      let x := pick group.length (cands d R group)
      loop d R pick f (group.erase x) (if nColl d R group x > 0 then c ++ [x] else c)
    else c

/-- `argmin`, the first of the smallest; `none` for an empty list (ValueError). -/
def argmin (f : Nat → α) : List Nat → Option Nat
  | [] => none
  | x :: xs => some (xs.foldl (fun m y => if f y < f m then y else m) x)

/-- `_assign_multiplets` (fibercollisions.py 232-288): the flags and the nearest neighbors of the collided objects. -/
def assignMultiplets (d : Nat → Nat → α) (R : α) (pick : Nat → List Nat → Nat) (N : Nat) : Except Err (List Bool × List Nat) := do
  let c := loop d R pick N (List.range N) []
  let uncollided := (List.range N).filter fun i => i ∉ c
  let nbrs ← (c.mergeSort fun a b => a ≤ b).mapM fun i => match argmin (d i) uncollided with
    | some j => .ok j
    | none => .error .valueError
  pure ((List.range N).map fun i => decide (i ∈ c), nbrs)

/-- `Collided` and `NeighborID` of an object; `none` is memory that was not written (`numpy.empty`). -/
abbrev Res := Option Bool × Option Int

/-- `PIG2['NeighborID'][start:end][collided] = PIG2['Index'][start+nearest]` and the lines before (fibercollisions.py 214-218). -/
def multipletRes (index : List Nat) (collided : List Bool) (nearest : List Nat) : Except Err (List Res) :=
  (List.range collided.length).mapM fun a =>
    if collided.getD a false then
      match nearest[(collided.take a).count true]? with
      | none => .error .valueError
      | some j => match index[j]? with
        | none => .error .indexError
        | some i => .ok (some true, some (i : Int))
    else .ok (some false, some (-1))

/-- The body of the loop over groups for the objects of one group (fibercollisions.py 193-218). `old` is what the memory holds. -/
def groupRes (dist : Nat → Nat → α) (R : α) (which : Bool) (pick : Nat → List Nat → Nat) (index : List Nat) (old : List Res) :
    Except Err (List Res) :=
  match index with
  | [i, j] => .ok (if which then [(some false, some (-1)), (some true, some (i : Int))] else [(some true, some (j : Int)), (some false, some (-1))])
  | _ =>
    if index.length > 2 then
      match assignMultiplets (fun a b => dist (index.getD a 0) (index.getD b 0)) R pick index.length with
      | .error e => .error e
      | .ok (collided, nearest) => multipletRes index collided nearest
    else .ok old

/-- One pass of the loop over groups on a rank (fibercollisions.py 191-218). `rows` are `(Index, Label)`, sorted by label. -/
def groupStep (dist : Nat → Nat → α) (R : α) (which : Nat → Bool) (pick : Nat → Nat → List Nat → Nat) (rows : List (Nat × Nat))
    (res : List Res) (g : Nat) : Except Err (List Res) := do
  let start := (rows.takeWhile fun p => p.2 < g).length
  let stop := (rows.takeWhile fun p => p.2 ≤ g).length
  let new ← groupRes dist R (which g) (pick g) (((rows.drop start).take (stop - start)).map Prod.fst) ((res.drop start).take (stop - start))
  pure (res.take start ++ new ++ res.drop stop)

/-- The loop over `numpy.unique(PIG2['Label'])` on a rank (fibercollisions.py 191-218). -/
def rankRes (dist : Nat → Nat → α) (R : α) (which : Nat → Bool) (pick : Nat → Nat → List Nat → Nat) (rows : List (Nat × Nat)) :
    Except Err (List Res) :=
  ((rows.map Prod.snd).mergeSort fun a b => a ≤ b).eraseDups.foldlM (groupStep dist R which pick rows) (List.replicate rows.length (none, none))

/-- The objects in groups, `(Index, Label)` (fibercollisions.py 164-177). -/
def pig (labels : List (List Nat)) : List (List (Nat × Nat)) :=
  labels.mapIdx fun r l =>
    (l.mapIdx fun i x => (((labels.map List.length).take r).sum + i, x)).filter fun p => p.2 ≠ 0

/-- Results of the objects in groups put back at their positions; the others are not collided (fibercollisions.py 226-230). -/
def place : List Nat → List Res → Except Err (List Res)
  | [], _ => .ok []
  | 0 :: ls, rs => match place ls rs with
    | .error e => .error e
    | .ok o => .ok ((some false, some (-1)) :: o)
  | (_ + 1) :: _, [] => .error .valueError
  | (_ + 1) :: ls, r :: rs => match place ls rs with
    | .error e => .error e
    | .ok o => .ok (r :: o)

/-- `_assign_fibers` (fibercollisions.py 144-230) on all ranks. The objects of group `g` go to rank `g % size`, sorted by label with
any order `ord` of the objects of a group; the results are sorted by the global index, and each rank gets back as many as it has
objects in groups. -/
def assignFibers (dist : Nat → Nat → α) (R : α) (which : Nat → Bool) (pick : Nat → Nat → List Nat → Nat)
    (ord : List (Nat × Nat) → List (Nat × Nat)) (labels : List (List Nat)) : Except Err (List (List Res)) := do
  let P := pig labels
  let P2 := (List.range labels.length).map fun r => ord (P.flatten.filter fun p => p.2 % labels.length = r)
  let res ← P2.mapM (rankRes dist R which pick)
  let all := ((P2.zip res).flatMap fun a => (a.1.map Prod.fst).zip a.2).mergeSort fun a b => a.1 ≤ b.1
  let sizes := P.map List.length
  (labels.mapIdx fun r l => (l, (all.drop ((sizes.take r).sum)).take (sizes.getD r 0))).mapM fun lr => place lr.1 (lr.2.map Prod.snd)

end NBK.Fiber
