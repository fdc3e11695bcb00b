/-!
# Model of `GatherArray` and `ScatterArray` (nbodykit/utils.py 128-348)

All ranks at once: the input is the list of the ranks' arguments.  Rows are opaque payloads.  Memory of a
freshly allocated buffer that no rank has written is `none`, so that a wrong offset is visible.
Not modelled: `order='C'` copies, the 2 GB custom byte datatype, 0-dimensional input, and a `data` argument
of `GatherArray` that is not an array (that rank alone raises before any communication).
-/
namespace NBK.Gather

/-- Python exceptions raised by the modelled code. -/
inductive Err where
  | valueError | typeError | attributeError
  deriving DecidableEq, Repr

/-- A plain (non-structured) numpy array on one rank: `dtype`, `shape[1:]` and the rows. -/
structure Arr (δ ρ : Type) where
  dtype : δ
  trail : List Nat
  rows : List ρ

/-- The `root` argument of `GatherArray`: a rank number or `Ellipsis` (utils.py 128, 141-143). -/
inductive Root where
  | ellipsis
  | rank (r : Nat)
  deriving DecidableEq, Repr

/-- `root is Ellipsis or comm.rank == root` on rank `me` (utils.py 181, 196, 221). -/
def Root.here : Root → Nat → Bool
  | .ellipsis, _ => true
  | .rank r, me => me == r

/-- `offsets[1:] = counts.cumsum()[:-1]`, entry `r` (utils.py 231-232, 341-342). -/
def offset (counts : List Nat) (r : Nat) : Nat := (counts.take r).sum

/-- One rank's contribution is copied to the receive buffer from position `off` on (the effect of `Gatherv`
for one sender, utils.py 235-238). -/
def writeAt {ρ : Type} (buf : List (Option ρ)) (off : Nat) (rows : List ρ) : List (Option ρ) :=
  buf.mapIdx fun i x => if off ≤ i ∧ i < off + rows.length then rows[i - off]? else x

/-- `Gatherv([data, dt], [recvbuffer, (counts, offsets), dt])`: the content of `recvbuffer`
(utils.py 215-238).  The buffer has `allreduce(local_length)` rows, initially uninitialised. -/
def gatherv {ρ : Type} (D : List (List ρ)) : List (Option ρ) :=
  let counts := D.map List.length
  D.zipIdx.foldl (fun buf p => writeAt buf (offset counts p.2) p.1)
    (List.replicate counts.sum none)

/-- `GatherArray(data, comm, root)` for non-structured data on all ranks (utils.py 151-247): the result is
`None` except on the receiving rank(s).  `bad_shape`/`bad_dtype` are computed only where
`root is Ellipsis or comm.rank == root` and then broadcast *from rank 0* (line 203), hence rank 0's value
`None` (falsy) is used when rank 0 is not a receiver. -/
def gather {δ ρ : Type} [DecidableEq δ] (isObj : δ → Bool) (root : Root) (A : List (Arr δ ρ)) :
    Except Err (List (Option (List (Option ρ)))) :=
  match A with
  | [] => .ok []
  | a0 :: rest =>
    if isObj a0.dtype then .error .valueError else
    let badShape := if root.here 0 then rest.any (fun a => a.trail != a0.trail) else false
    let badDtype := if root.here 0 then rest.any (fun a => a.dtype != a0.dtype) else false
    if badShape then .error .valueError else
    if badDtype then .error .valueError else
    let buf := gatherv (A.map Arr.rows)
    .ok (A.mapIdx fun r _ => if root.here r then some buf else none)

/-- A structured array: field names in dtype order, dtype of each field, `shape[1:]`, records.
A subarray field's own shape belongs to the payload `π` (simplification). -/
structure SArr (δ π : Type) where
  names : List String
  fdtype : String → δ
  trail : List Nat
  rows : List (String → π)

/-- `data[name]` for structured data (utils.py 186). -/
def SArr.column {δ π : Type} (a : SArr δ π) (name : String) : Arr δ π :=
  ⟨a.fdtype name, a.trail, a.rows.map (· name)⟩

/-- `set(x) == set(y)`. -/
def sameSet (x y : List String) : Bool := x.all (fun s => y.contains s) && y.all (fun s => x.contains s)

/-- `GatherArray` for structured data (utils.py 163-190): field by field, with the names of rank 0's dtype;
the receive buffer is returned as its columns. All ranks are assumed to pass structured data (a plain array on
another rank makes `set(dt.names)` fail with a TypeError). -/
def gatherStruct {δ π : Type} [DecidableEq δ] (isObj : δ → Bool) (root : Root) (A : List (SArr δ π)) :
    Except Err (List (Option (List (String × List (Option π))))) :=
  match A with
  | [] => .ok []
  | a0 :: rest =>
    if rest.any (fun a => !sameSet a.names a0.names) then .error .valueError else
    if a0.names.any (fun n => isObj (a0.fdtype n)) then .error .valueError else do
    let cols ← a0.names.mapM fun n => do
      let d ← gather isObj root (A.map (·.column n))
      pure (n, d)
    pure (A.mapIdx fun r _ =>
      if root.here r then
        some (cols.map fun c => (c.1, ((c.2[r]?).join).getD []))
      else none)

/-- The `data` argument of `ScatterArray` on one rank. -/
inductive Input (δ ρ : Type) where
  | none
  | notArray
  | arr (a : Arr δ ρ)

/-- `isinstance(data, numpy.ndarray)` -/
def Input.isArr {δ ρ : Type} : Input δ ρ → Bool
  | .arr _ => true
  | _ => false

/-- `newlength = shape[0] // size; if rank < shape[0] % size: newlength += 1` (utils.py 321-323). -/
def newlength (n P r : Nat) : Nat := n / P + if r < n % P then 1 else 0

/-- `ScatterArray(data, comm, root, counts)` on all ranks (utils.py 249-348).
* `bad_input` is computed on `root` but broadcast from rank 0 (282-285);
* shape and dtype are taken from *rank 0's* `data` (289-298); `None.flags` is an AttributeError;
* every rank other than `root` replaces its data by an empty array (309-311);
* `Scatterv` is called without `root`, i.e. it sends rank 0's buffer (346).
Reading beyond the end of the send buffer is modelled by `none` (undefined content).
`counts` is the same on all ranks and non-negative (simplification). -/
def scatter {δ ρ : Type} (isObj : δ → Bool) (root : Nat) (counts : Option (List Nat))
    (D : List (Input δ ρ)) : Except Err (List (List (Option ρ))) :=
  let P := D.length
  if (match counts with | some cs => cs.length != P | none => false) then .error .valueError else
  match D with
  | [] => .ok []
  | d0 :: _ =>
    if (if root = 0 then !d0.isArr else false) then .error .valueError else
    match d0 with
    | .none => .error .attributeError
    | .notArray => .error .attributeError
    | .arr a0 =>
      if isObj a0.dtype then .error .valueError else
      let n := a0.rows.length
      let sendbuf := if root ≠ 0 then [] else a0.rows
      if (match counts with | some cs => cs.sum != n | none => false) then .error .valueError else
      let cnts := match counts with
        | some cs => cs
        | none => (List.range P).map (newlength n P)
      .ok (cnts.mapIdx fun r c => (List.range c).map fun j => sendbuf[offset cnts r + j]?)

end NBK.Gather
