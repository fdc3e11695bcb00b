/-!
# Model of `FrontPadArray` (nbodykit/utils.py 350-370)

A distributed array is a list with one entry per rank.  `front` may differ from rank to rank
(`MPIRandomState` calls the function with a rank dependent `front`), therefore the input is a list of
pairs `(local array, local front)`.
-/
namespace NBK.FrontPad

/-- Python exceptions raised by the modelled code. -/
inductive Err where
  | valueError
  deriving DecidableEq, Repr

/-- `N = comm.allgather(len(array))` (utils.py 354). -/
def lens {α : Type} (R : List (List α × Nat)) : List Nat := R.map fun p => p.1.length

/-- `offsets = cumsum(concatenate([[0], N]))`; `offsets[r]` (utils.py 355). -/
def offset (N : List Nat) (r : Nat) : Nat := (N.take r).sum

/-- One entry of `torecv` on a rank that starts at `off` and wants `front` items, for a source rank whose
data are the global rows `[start, start + n)`.  The arithmetic is signed, as for numpy `intp`
(utils.py 356-361):
`torecv = (offsets[:-1] + N) - mystart`, then the three clipping statements in order. -/
def torecvEntry (off front start n : Nat) : Nat :=
  let t : Int := ((start : Int) + n) - ((off : Int) - front)
  let t := if t < 0 then 0 else t
  let t := if t > front then 0 else t
  let t := if t > n then (n : Int) else t
  t.toNat

/-- The whole `torecv` vector of rank `r` (utils.py 356-361). -/
def torecv (N : List Nat) (r front : Nat) : List Nat :=
  N.mapIdx fun i n => torecvEntry (offset N r) front (offset N i) n

/-- `array[-items:] if items > 0 else array[0:0]` (utils.py 368). Python clips `-items` at the start. -/
def lastItems {α : Type} (a : List α) (items : Nat) : List α :=
  if items > 0 then a.drop (a.length - items) else []

/-- `FrontPadArray(array, front, comm)` on all ranks at once (utils.py 350-370).
The vote `comm.allreduce(torecv.sum() != front, LOR)` makes every rank raise as soon as one rank
cannot work out a plan; the two `alltoall` calls deliver to rank `r`, from rank `i`, the last
`torecv_r[i]` items of rank `i`. -/
def frontPad {α : Type} (R : List (List α × Nat)) : Except Err (List (List α)) :=
  let N := lens R
  let plans : List (List Nat) := R.mapIdx fun r p => torecv N r p.2
  if (R.zip plans).any (fun q => q.2.sum != q.1.2) then
    .error .valueError
  else
    .ok ((R.zip plans).map fun q =>
      ((R.zip q.2).map fun s => lastItems s.1.1 s.2).flatten ++ q.1.1)

end NBK.FrontPad
