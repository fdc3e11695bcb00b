import Verif.Rng.Model

/-!
# Model of MPIRandomState objects (nbodykit/mpirng.py): arguments and shapes, the four samplers, errors, programs of calls

A numpy array is its shape and a function from indices to values. The samplers of numpy are a parameter `gen method seed rows`: the numbers drawn by a new `RandomState(seed)`
for a list of rows, or an exception. A row holds, for every argument, its values over the shape of an item, in the order of memory.
-/
set_option linter.unusedSimpArgs false
namespace NBK.RngObj
open NBK.FrontPad (frontPad)

inductive Err where
  | valueError | indexError
  deriving DecidableEq, Repr

/-- A numpy array. -/
structure Nd (α : Type) where
  shape : List Nat
  at' : List Nat → α

/-- An argument of a sampler on one rank: something for which `numpy.isscalar` holds, or an array. -/
inductive Arg (α : Type) where
  | scalar (x : α)
  | array (a : Nd α)

/-- Broadcasting of one dimension. -/
def bdim (a b : Nat) : Option Nat := if a = b then some a else if a = 1 then some b else if b = 1 then some a else none

/-- Broadcasting of two shapes, given from the last dimension. -/
def bshapeRev : List Nat → List Nat → Option (List Nat)
  | [], l => some l
  | l, [] => some l
  | a :: l, b :: m => match bdim a b, bshapeRev l m with
    | some d, some s => some (d :: s)
    | _, _ => none

def bshape (s t : List Nat) : Option (List Nat) := (bshapeRev s.reverse t.reverse).map List.reverse

/-- The shape of `numpy.broadcast_arrays(r, *args)` (mpirng.py 51-52); a scalar does not change it. -/
def bshapes {α : Type} (s : List Nat) : List (Arg α) → Option (List Nat)
  | [] => some s
  | .scalar _ :: l => bshapes s l
  | .array a :: l => match bshape s a.shape with
    | some t => bshapes t l
    | none => none

/-- The index in the array of an index in the broadcast array: leading dimensions are dropped, in a dimension of length 1 the index is 0. -/
def reindex (shape idx : List Nat) : List Nat :=
  (shape.zip (idx.drop (idx.length - shape.length))).map fun p => if p.1 = 1 then 0 else p.2

/-- All indices of a shape, in the order of memory. -/
def indices : List Nat → List (List Nat)
  | [] => [[]]
  | d :: s => (List.range d).flatMap fun i => (indices s).map (i :: ·)

/-- The values of an argument at row `i` of the broadcast arrays with rows of shape `item`. -/
def Arg.row {α : Type} (a : Arg α) (item : List Nat) (i : Nat) : List α :=
  match a with
  | .scalar x => (indices item).map fun _ => x
  | .array a => (indices item).map fun idx => a.at' (reindex a.shape (i :: idx))

/-- `_prepare_args_and_result` before padding (mpirng.py 41-52): the rows, and the shape of a row. -/
def prepare {α : Type} (size : Nat) (item : List Nat) (args : List (Arg α)) : Except Err (List Nat × List (List (List α))) :=
  match bshapes (size :: item) args with
  | some (n :: tail) => .ok (tail, (List.range n).map fun i => args.map fun a => a.row tail i)
  | _ => .error .valueError

/-- The loop of `_call_rngmethod` with samplers that may raise (mpirng.py 113-134). -/
def loop {ι β σ : Type} (c : Nat) (seeds : List σ) (g : σ → List ι → Except Err (List β)) : Nat → List ι → Except Err (List β)
  | ichunk, rows =>
    if _hr : rows.length > 0 then
      if _hc : c = 0 then .error .indexError else
      let nreq := min rows.length c
      match seeds[ichunk]? with
      | none => .error .indexError
      | some seed =>
        match g seed (rows.take nreq) with
        | .error e => .error e
        | .ok chunk => match loop c seeds g (ichunk + 1) (rows.drop nreq) with
          | .error e => .error e
          | .ok rest => .ok (chunk ++ rest)
    else .ok []
termination_by _ rows => rows.length
decreasing_by simp; omega

/-- What a call gives on one rank. A rank that raises before the collective calls leaves the others waiting. -/
inductive Res (β : Type) where
  | ok (l : List β)
  | error (e : Err)
  | hang
  deriving DecidableEq, Repr

def toRes {β : Type} : Except Err (List β) → Res β
  | .ok l => .ok l
  | .error e => .error e

/-- An object on all ranks: local sizes, chunk size, the stream of seeds of the serial generator and how many have been drawn (mpirng.py 21-39). -/
structure Obj (σ : Type) where
  sizes : List Nat
  c : Nat
  seedOf : Nat → σ
  drawn : Nat

/-- `MPIRandomState(comm, seed, size, chunksize)` (mpirng.py 21-39). -/
def create {σ : Type} (seedOf : Nat → σ) (sizes : List Nat) (c : Nat) : Obj σ := ⟨sizes, c, seedOf, 0⟩

/-- `self._start` (mpirng.py 28). -/
def Obj.start {σ : Type} (o : Obj σ) (r : Nat) : Nat := (o.sizes.take r).sum

/-- `self.nchunks` (mpirng.py 35-36). -/
def Obj.nchunks {σ : Type} (o : Obj σ) : Nat := Rng.nchunks o.c o.sizes.sum

/-- The four samplers (mpirng.py 69-96), with what is not padded. The probabilities `p` are given as whole weights. -/
inductive Method (χ : Type) where
  | poisson
  | choice (choices : List χ) (replace : Bool) (p : Option (List Nat))
  | normal
  | uniform
  deriving DecidableEq, Repr

/-- A call: the sampler, the shape of an item and, for every rank, its arguments. -/
structure Call (χ α : Type) where
  method : Method χ
  item : List Nat
  args : List (List (Arg α))

/-- The rank raises in `broadcast_arrays`. -/
def failed {γ : Type} : Except Err γ → Bool
  | .error _ => true
  | .ok _ => false

/-- The result of a rank when another one, or itself, has raised before the collective calls. -/
def stuck {β γ : Type} : Except Err γ → Res β
  | .error e => .error e
  | .ok _ => .hang

def rowsOf {α : Type} : Except Err (List Nat × List (List (List α))) → List Nat × List (List (List α))
  | .ok q => q
  | .error _ => ([], [])

/-- The rank waits for ever. -/
def Res.hangs {β : Type} : Res β → Bool
  | .hang => true
  | _ => false

/-- `_call_rngmethod` on all ranks (mpirng.py 98-136). The seeds are drawn first. If the arguments of a rank do not broadcast it raises, and the others wait in `FrontPadArray`.
Arguments that make the rows larger than an item are refused by the sampler; this is given for all ranks, also for those without rows. -/
def Obj.call {σ χ α β : Type} (gen : Method χ → σ → List (List (List α)) → Except Err (List β)) (o : Obj σ) (k : Call χ α) : Obj σ × List (Res β) :=
  let seeds := (List.range o.nchunks).map fun i => o.seedOf (o.drawn + i)
  let o' := { o with drawn := o.drawn + o.nchunks }
  let prep := List.zipWith (fun n a => prepare n k.item a) o.sizes k.args
  if prep.any failed then (o', prep.map stuck)
  else
    let rows := prep.map rowsOf
    if rows.any (fun q => q.1 ≠ k.item) then (o', rows.map fun _ => .error .valueError)
    else match frontPad (rows.mapIdx fun r q => (q.2, Rng.skip o.c (o.start r))) with
      | .error _ => (o', rows.map fun _ => .error .valueError)
      | .ok padded => (o', padded.mapIdx fun r xs =>
          toRes ((loop o.c seeds (gen k.method) (Rng.firstIchunk o.c (o.start r)) xs).map fun out => out.drop (Rng.skip o.c (o.start r))))

/-- A program: calls one after the other, errors being caught; nothing comes after a call in which a rank waits for ever. -/
def run {σ χ α β : Type} (gen : Method χ → σ → List (List (List α)) → Except Err (List β)) : Obj σ → List (Call χ α) → Obj σ × List (List (Res β))
  | o, [] => (o, [])
  | o, k :: l =>
    let p := o.call gen k
    if p.2.any Res.hangs then (p.1, [p.2])
    else
      let q := run gen p.1 l
      (q.1, p.2 :: q.2)

/-- `cdf.searchsorted(x, side='right')` for weights and a number `x = a/d` of `[0, 1)`: how many cumulative weights are not above `x` times the total. -/
def searchRight (w : List Nat) (x : Nat × Nat) : Nat :=
  ((List.range w.length).filter fun i => decide ((w.take (i + 1)).sum * x.2 ≤ x.1 * w.sum)).length

/-- The first occurrences, in order (`numpy.unique(..., return_index=True)`, sorted). -/
def firsts : List Nat → List Nat → List Nat
  | _, [] => []
  | seen, x :: l => if x ∈ seen then firsts seen l else x :: firsts (x :: seen) l

/-- numpy's `RandomState.choice(n, size, replace=False, p=w)`: rounds of as many numbers as are missing, the weights of those found being set to zero.
The loop of numpy has no bound; here it ends after `fuel` rounds. Numbers are taken one after the other from the stream `xs`. -/
def weighted (xs : Nat → Nat × Nat) (w : List Nat) (size : Nat) : Nat → Nat → List Nat → List Nat
  | 0, _, found => found
  | fuel + 1, used, found =>
    if size ≤ found.length then found
    else
      let m := size - found.length
      let w' := w.mapIdx fun i v => if i ∈ found then 0 else v
      weighted xs w size fuel (used + m) (found ++ firsts [] ((List.range m).map fun i => searchRight w' (xs (used + i))))

end NBK.RngObj
