import Verif.Comm.Basic
import Mathlib.Data.List.Dedup

/-!
# Model of the friends-of-friends code (nbodykit/algorithms/fof.py): `equiv_class`, `replacesorted`, `_fof_local`, `_fof_merge`

Particles are numbered by their position in the global array (`PID`).  A layout of `pmesh` is the list, for each rank, of the
particles it receives.  `kdcount.cluster.fof` is represented by the labels it returns on each rank.  `argsort` is a parameter,
since the order of equal keys is not specified (numpy's default sort is not stable).
-/
namespace NBK.Fof

inductive Err where
  | indexError | valueError | typeError
  deriving DecidableEq, Repr

/-- The contract of `x.argsort()`: the positions, in an order which sorts the keys (equal keys come in any order). -/
structure IsArgsort (argsort : List Nat → List Nat) : Prop where
  perm : ∀ l : List Nat, (argsort l).Perm (List.range l.length)
  sorted : ∀ l : List Nat, (argsort l).Pairwise fun i j => l.getD i 0 ≤ l.getD j 0

/-- `numpy.bincount(labels)`. -/
def npCounts (labels : List Nat) : List Nat :=
  (List.range (labels.foldr (fun x m => max (x + 1) m) 0)).map fun v => labels.count v

/-- `numpy.unique(labels, return_inverse=True)[1]`. -/
def uniqueInverse (labels : List Nat) : List Nat :=
  labels.map fun x => (labels.dedup.filter (· < x)).length

/-- `concatenate([[0], N.cumsum()])[:-1]` (fof.py 582). -/
def offsets (N : List Nat) : List Nat := (List.range N.length).map fun i => (N.take i).sum

/-- Reduction with a binary operation (`None` for nothing to reduce). -/
def reduce {β : Type} (op : β → β → β) : List β → Option β
  | [] => none
  | x :: xs => some (xs.foldl op x)

/-- One entry of `op.reduceat(v, offs)`: the reduction of `v[a:b]` if `a < b`, else `v[a]`; IndexError if `a >= len(v)`. -/
def reduceat1 {β : Type} (op : β → β → β) (v : List β) (a b : Nat) : Except Err β :=
  match v[a]? with
  | none => .error .indexError
  | some x =>
    if a < b then
      match reduce op ((v.drop a).take (b - a)) with
      | none => .error .indexError
      | some y => .ok y
    else .ok x

/-- `op.reduceat(v, offs)`. -/
def reduceat {β : Type} (op : β → β → β) (v : List β) (offs : List Nat) : Except Err (List β) :=
  (List.range offs.length).mapM fun i => reduceat1 op v (offs.getD i 0) (offs.getD (i + 1) v.length)

/-- Fancy indexing `x[idx]`. -/
def takeAt {β : Type} (x : List β) (idx : List Nat) : Except Err (List β) :=
  idx.mapM fun i => match x[i]? with
    | some y => .ok y
    | none => .error .indexError

/-- Write `identity` into the entries without members (fof.py 600-604); assigning `None` is a TypeError (for integers). -/
def fill {β : Type} (identity : Option β) (N : List Nat) (red : List β) (minlength : Nat) : Except Err (List β) :=
  (List.range minlength).mapM fun i =>
    match N[i]?, red[i]?, identity with
    | some (_ + 1), some x, _ => .ok x
    | _, _, some e => .ok e
    | _, _, none => .error .typeError

/-- `equiv_class(labels, values, op, dense_labels, identity, minlength)` (fof.py 538-607). `result[:len(N)] = ...` does not
broadcast if `minlength` is too small, unless there is one label only. -/
def equivClass {β : Type} (argsort : List Nat → List Nat) (op : β → β → β) (dense : Bool) (identity : Option β)
    (minlength : Option Nat) (labels : List Nat) (values : List β) : Except Err (List β) := do
  let labels := if dense then labels else uniqueInverse labels
  let N := npCounts labels
  let v ← takeAt values (argsort labels)
  let red ← reduceat op v (offsets N)
  let m := minlength.getD N.length
  if m < N.length ∧ N.length ≠ 1 then .error .valueError
  else fill identity N red m

/-- `sorted.searchsorted(x)` for a sorted array. -/
def searchLeft (s : List Nat) (x : Nat) : Nat := (s.takeWhile (· < x)).length

/-- `replacesorted(arr, sorted, b)` (fof.py 609-644). -/
def replacesorted (arr s b : List Nat) : Except Err (List Nat) :=
  if s = [] then .ok arr
  else arr.mapM fun x =>
    let ind := min (searchLeft s x) (s.length - 1)
    if s[ind]? = some x then
      match b[ind]? with
      | some y => .ok y
      | none => .error .indexError
    else .ok x

/-- Cut a global array into the local arrays of the given sizes. -/
def cut {α : Type} (sizes : List Nat) (l : List α) : List (List α) :=
  sizes.mapIdx fun r n => (l.drop ((sizes.take r).sum)).take n

/-- `layout.exchange(x)`: every rank gets the entries of the particles it receives. -/
def exchange {α : Type} (held : List (List Nat)) (x : List (List α)) : Except Err (List (List α)) :=
  held.mapM fun h => takeAt x.flatten h

/-- All values of the copies of particle `p`. -/
def copies {α : Type} (held : List (List Nat)) (M : List (List α)) (p : Nat) : List α :=
  ((held.zip M).flatMap fun hm => hm.1.zip hm.2).filterMap fun a => if a.1 = p then some a.2 else none

/-- `layout.gather(M, mode=numpy.fmin)`: the minimum over the copies of each particle, on the ranks the particles come from.
A particle without any copy is an error here (the decomposition sends each particle somewhere). -/
def gatherMin (held : List (List Nat)) (sizes : List Nat) (M : List (List Nat)) : Except Err (List (List Nat)) := do
  let l ← (List.range sizes.sum).mapM fun p => match reduce min (copies held M p) with
    | some x => .ok x
    | none => .error .valueError
  pure (cut sizes l)

/-- `PID` (fof.py 303-304): `arange(N)` plus the number of particles on lower ranks. -/
def pids (sizes : List Nat) : List (List Nat) :=
  sizes.mapIdx fun r n => (List.range n).map (· + (sizes.take r).sum)

/-- The end of `_fof_local` on one rank (fof.py 306-309). -/
def localMinid (argsort : List Nat → List Nat) (labels : List Nat) (pid : List Nat) : Except Err (List Nat) := do
  let c ← equivClass argsort min false none none labels pid
  takeAt c labels

/-- `_fof_local` (fof.py 289-309); `labels` are those of `kdcount` on all ranks. -/
def fofLocal (argsort : List Nat → List Nat) (held : List (List Nat)) (sizes : List Nat) (labels : List (List Nat)) :
    Except Err (List (List Nat)) := do
  let pid ← exchange held (pids sizes)
  (labels.zip pid).mapM fun lp => localMinid argsort lp.1 lp.2

/-- The update of a rank in the loop of `_fof_merge` (fof.py 321-335). -/
def mergeRank (argsort : List Nat → List Nat) (minid new : List Nat) : Except Err (List Nat) := do
  let merged := (minid.zip new).filter fun a => a.2 ≠ a.1
  let arg := argsort (merged.map Prod.fst)
  let old ← takeAt (merged.map Prod.fst) arg
  let new ← takeAt (merged.map Prod.snd) arg
  replacesorted minid old new

/-- The loop of `_fof_merge` (fof.py 311-337); `none`: not finished within `fuel` turns. -/
def mergeLoop (argsort : List Nat → List Nat) (held : List (List Nat)) (sizes : List Nat) :
    Nat → List (List Nat) → Option (Except Err (List (List Nat)))
  | 0, _ => none
  | fuel + 1, M =>
    match gatherMin held sizes M >>= exchange held with
    | .error e => some (.error e)
    | .ok new =>
      if (List.zip M new).all fun mn => (mn.1.zip mn.2).all fun a => a.2 == a.1 then
        some (gatherMin held sizes M)
      else
        match (M.zip new).mapM fun mn => mergeRank argsort mn.1 mn.2 with
        | .error e => some (.error e)
        | .ok M' => mergeLoop argsort held sizes fuel M'

/-- `fof` (fof.py 339-413) after the domain decomposition. -/
def fof (argsort : List Nat → List Nat) (held : List (List Nat)) (sizes : List Nat) (labels : List (List Nat)) (fuel : Nat) :
    Option (Except Err (List (List Nat))) :=
  match fofLocal argsort held sizes labels with
  | .error e => some (.error e)
  | .ok M => mergeLoop argsort held sizes fuel M

end NBK.Fof
