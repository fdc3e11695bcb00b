import Verif.Comm.Basic

/-!
# Model of the cylindrical grouping method (nbodykit/algorithms/cgm.py)

An object is identified by its index in the sorted catalog (`sortindex`), which is unique; larger means higher priority.
`rel i j` says that the pair `(i, j)` passes the cuts in `rperp` and `rpar` (`valid`, cgm.py 271-295).
`own` are the objects of each rank after the domain decomposition (`layout1`), `held` those received with the ghosts (`layout2`).
A pandas data frame of pairs is the list of its rows `(sort_i, sort_j)`; a Python set is a list.
`srt key l` sorts descending by a key, with any order of equal keys (pandas sorts with quicksort, which is not stable).
-/
namespace NBK.Cgm

/-- The exceptions of interest. -/
inductive Err where
  | valueError
  deriving DecidableEq, Repr

/-- `DataFrame.sort_values(..., ascending=False)` and `sort_index(ascending=False)`. -/
structure IsDesc (srt : (Nat × Nat → Nat) → List (Nat × Nat) → List (Nat × Nat)) : Prop where
  perm : ∀ key l, (srt key l).Perm l
  sorted : ∀ key l, (srt key l).Pairwise fun a b => key b ≤ key a

/-- The valid pairs on a rank, `tree1.enum(tree2, rmax, process=callback)` with the cuts (cgm.py 262-318); the pair of an object
with itself is among them if `rel i i`. The order of the pairs is lost by the sort that follows. -/
def pairs (rel : Nat → Nat → Bool) (own held : List Nat) : List (Nat × Nat) :=
  own.flatMap fun i => (held.filter (rel i)).map fun j => (i, j)

/-- `j_gt_i[i]` (cgm.py 303-304). -/
def jGtI (rows : List (Nat × Nat)) (i : Nat) : Nat := (rows.filter fun p => p.1 = i ∧ p.1 < p.2).length

/-- The rank where an object lives (`startrank`, cgm.py 258). -/
def owner (own : List (List Nat)) (j : Nat) : Nat := own.findIdx fun o => j ∈ o

/-- `wrong_rank[i]` (cgm.py 307-308). -/
def wrongRank (own : List (List Nat)) (r : Nat) (rows : List (Nat × Nat)) (i : Nat) : Nat :=
  (rows.filter fun p => p.1 = i ∧ p.1 < p.2 ∧ owner own p.2 ≠ r).length

/-- `_remove_objects_paired_with(df, bad_pairs)` (cgm.py 404-424). -/
def removePaired (rows : List (Nat × Nat)) (bad : List Nat) : List (Nat × Nat) :=
  let toDrop := (rows.filter fun p => p.2 ∈ bad).map Prod.fst
  rows.filter fun p => p.1 ∉ toDrop

/-- `df.groupby('sort_i', sort=False)`: the groups in order of appearance, with their `sort_j`. -/
def groups (rows : List (Nat × Nat)) : List (Nat × List Nat) :=
  (rows.map Prod.fst).eraseDups.map fun k => (k, (rows.filter fun p => p.1 = k).map Prod.snd)

/-- `find_local_centrals` (cgm.py 443-461); the state is `(centrals, maybes)`. -/
def findLocal (st : List Nat × List Nat) (g : Nat × List Nat) : List Nat × List Nat :=
  if g.2.any (· ∈ st.1) then st
  else if g.2.any (· ∈ st.2) then (st.1, g.1 :: st.2)
  else (g.1 :: st.1, st.2)

/-- The part of `cgm` and `_find_centrals` before the communication, on rank `r` (cgm.py 320-357, 463-478): the local centrals, and
the pairs of the objects that may be centrals. -/
def localCentrals (srt : (Nat × Nat → Nat) → List (Nat × Nat) → List (Nat × Nat)) (rel : Nat → Nat → Bool)
    (allOwn : List (List Nat)) (r : Nat) (own held : List Nat) : List Nat × List (Nat × Nat) :=
  let rows := srt Prod.fst (pairs rel own held)
  let centrals := own.filter fun i => jGtI rows i = 0
  let other := own.filter fun i => wrongRank allOwn r rows i > 0
  let possible := (rows.filter fun p => p.2 > p.1).filter fun p => p.1 ∉ centrals
  let cens := removePaired possible centrals
  let st := (groups (cens.filter fun p => p.1 ∉ other)).foldl findLocal (centrals, other)
  (st.1, cens.filter fun p => p.1 ∈ st.2)

/-- `finalize` (cgm.py 494-497). -/
def finalize (new : List Nat) (g : Nat × List Nat) : List Nat := if g.2.any (· ∈ new) then new else g.1 :: new

/-- The end of `_find_centrals` (cgm.py 480-512): root decides the remaining objects; the list of all centrals, descending. -/
def findCentrals (srt : (Nat × Nat → Nat) → List (Nat × Nat) → List (Nat × Nat)) (L : List (List Nat × List (Nat × Nat))) : List Nat :=
  let all := L.flatMap Prod.fst
  let maybes := removePaired (L.flatMap Prod.snd) all
  let new := (groups (srt Prod.fst maybes)).foldl finalize []
  (all ++ new).mergeSort fun a b => b ≤ a

/-- `df.join(labels, on=...)` (cgm.py 362-366): the label of an object, `none` if it is not a central. -/
def label (all : List Nat) (k : Nat) : Option Nat := if k ∈ all then some (all.idxOf k) else none

/-- The satellites of a rank with their central: the first row of each group of the rows sorted by `sort_j` (cgm.py 377-385). -/
def hosts (srt : (Nat × Nat → Nat) → List (Nat × Nat) → List (Nat × Nat)) (all : List Nat) (rows : List (Nat × Nat)) :
    List (Nat × Nat) :=
  let sats := srt Prod.snd (rows.filter fun p => label all p.1 = none ∧ label all p.2 ≠ none)
  (sats.map Prod.fst).eraseDups.filterMap fun i => sats.find? fun p => p.1 = i

/-- The fields of an object in the result. The label is `none` if it is the cast of a NaN. -/
structure Row where
  haloid : Option Int
  nsats : Nat
  type : Nat
  deriving DecidableEq, Repr

/-- `cgm_haloid` and `cgm_type` of object `i` on its rank (cgm.py 369-391): `-1` at first, then the label of the first pair of `i` with
a central, then, for satellites, the label of the host. -/
def typeAndLabel (all : List Nat) (rows hs : List (Nat × Nat)) (i : Nat) : Option Int × Nat :=
  match hs.find? fun p => p.1 = i with
  | some h => ((label all h.2).map fun x : Nat => (x : Int), 1)
  | none =>
    match rows.find? fun p => p.1 = i ∧ label all p.2 ≠ none with
    | some _ => ((label all i).map fun x : Nat => (x : Int), 0)
    | none => (some (-1), 0)

/-- `cgm` (cgm.py 198-401). `origind` gives the index in the input of each sorted object; the result is the global array after
the final sort by `origind`. A rank without objects has no data frame to concatenate (cgm.py 332), if kdcount does not
call `callback` then (`emptyCall = false`). -/
def cgm (srt : (Nat × Nat → Nat) → List (Nat × Nat) → List (Nat × Nat)) (rel : Nat → Nat → Bool) (emptyCall : Bool)
    (origind : Nat → Nat) (own held : List (List Nat)) : Except Err (List Row) :=
  if ¬ emptyCall ∧ [] ∈ own then .error .valueError
  else
    let ranks := own.zip held
    let all := findCentrals srt (ranks.mapIdx fun r oh => localCentrals srt rel own r oh.1 oh.2)
    let frames := ranks.map fun oh =>
      let rows := srt Prod.fst (pairs rel oh.1 oh.2)
      (oh.1, rows, hosts srt all rows)
    let counts := fun k : Nat => (frames.map fun f => (f.2.2.filter fun h => h.2 = k).length).sum
    let out := frames.flatMap fun f => f.1.map fun i =>
      (origind i, { haloid := (typeAndLabel all f.2.1 f.2.2 i).1, nsats := counts i, type := (typeAndLabel all f.2.1 f.2.2 i).2 : Row })
    .ok ((out.mergeSort fun a b => a.1 ≤ b.1).map Prod.snd)

end NBK.Cgm
