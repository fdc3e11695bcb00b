import Verif.FrontPad.Model

/-!
# Model of `MPIRandomState` (nbodykit/mpirng.py)

`D` is the list of the ranks' argument rows: all array-valued arguments of a sampler call are zipped into one
row per requested item (the code pads each of them with the same `_skip`, mpirng.py 59-65, so padding the zipped
array is the same thing).  Scalar arguments are not padded (lines 60-62) and are part of `sampler`.
When there are no array arguments the row type is `Unit`.
The rows of `r` (the zero-filled result array, line 50) have the same length, so it is not modelled separately.
`numpy.random.RandomState(seed)` followed by the distribution call is the parameter `sampler seed rows`.
-/
namespace NBK.Rng

open NBK.FrontPad (frontPad)

inductive Err where
  | valueError     -- raised by FrontPadArray
  | indexError     -- seeds[ichunk] out of range
  deriving DecidableEq, Repr

/-- `self._start` (mpirng.py 28). -/
def start {ι : Type} (D : List (List ι)) (r : Nat) : Nat := ((D.take r).map List.length).sum

/-- `self._first_ichunk = start // chunksize` (line 31). -/
def firstIchunk (c st : Nat) : Nat := st / c

/-- `self._skip = start - first_ichunk * chunksize` (line 33). -/
def skip (c st : Nat) : Nat := st - firstIchunk c st * c

/-- `nchunks = (csize + chunksize - 1) // chunksize` (line 35). -/
def nchunks (c total : Nat) : Nat := (total + c - 1) / c

/-- The while loop of `_call_rngmethod` (lines 113-134): at most a full chunk per iteration,
`seeds[ichunk]` for the `ichunk`-th chunk.  `chunksize = 0` is numpy's floor division by zero, which makes
`nchunks = 0` and the first look-up fail. -/
def loop {ι β σ : Type} (c : Nat) (seeds : List σ) (sampler : σ → List ι → List β) :
    Nat → List ι → Except Err (List β)
  | ichunk, rows =>
    if _hr : rows.length > 0 then
      if _hc : c = 0 then .error .indexError else
      let nreq := min rows.length c
      match seeds[ichunk]? with
      | none => .error .indexError
      | some seed =>
        match loop c seeds sampler (ichunk + 1) (rows.drop nreq) with
        | .error e => .error e
        | .ok rest => .ok (sampler seed (rows.take nreq) ++ rest)
    else .ok []
termination_by _ rows => rows.length
decreasing_by simp; omega

/-- `_call_rngmethod` on all ranks (lines 98-136): pad the arguments, loop over chunks, cut `_skip` values off the
front.  `seedOf` is the sequence of seeds drawn by the serial generator, the same on all ranks (line 109);
only the first `nchunks` are available. -/
def call {ι β σ : Type} (c : Nat) (seedOf : Nat → σ) (sampler : σ → List ι → List β)
    (D : List (List ι)) : Except Err (List (List β)) :=
  let total := (D.map List.length).sum
  let seeds := (List.range (nchunks c total)).map seedOf
  match frontPad (D.mapIdx fun r d => (d, skip c (start D r))) with
  | .error _ => .error .valueError
  | .ok padded =>
    (padded.mapIdx fun r rows =>
      (loop c seeds sampler (firstIchunk c (start D r)) rows).map
        (fun out => out.drop (skip c (start D r)))).mapM id

end NBK.Rng
