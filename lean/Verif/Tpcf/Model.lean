import Mathlib.Algebra.Order.Field.Basic

/-!
# Model of the three-point correlation function (nbodykit/algorithms/threeptcf.py)

Numbers are those of an ordered field `K` (the reals, or rationals in examples), a complex number is a pair. Parameters are: `len`, the length that kdcount gives for a separation; the spherical
harmonics `Y l m` of a direction, for `m >= 0`; `fourPi`; and `bunches`, the bunches of pairs in which `enum` of kdcount hands over the
neighbours of a primary. The domain decomposition is that of the pair counts (`Verif.Pairs`).
-/
namespace NBK.Tpcf

variable {K : Type} [Field K] [LinearOrder K]

structure Vec (K : Type) where
  x : K
  y : K
  z : K

/-- An object with its weight. -/
structure Obj (K : Type) where
  pos : Vec K
  w : K

inductive Err where
  | valueError
  /-- `integer division or modulo by zero` -/
  | zeroDivision
  deriving DecidableEq, Repr

/-- A complex number. -/
structure Cx (K : Type) where
  re : K
  im : K

/-- The two masked assignments to a column of `dpos` (threeptcf.py 75-76). -/
def wrapAxis (L d : K) : K :=
  let d := if d > L * (1 / 2) then d - L else d
  if d ≤ -L * (1 / 2) then d + L else d

/-- `dpos` (threeptcf.py 70-76). -/
def dposOf (box : Option (Vec K)) (p s : Obj K) : Vec K :=
  let d : Vec K := ⟨s.pos.x - p.pos.x, s.pos.y - p.pos.y, s.pos.z - p.pos.z⟩
  match box with
  | some L => ⟨wrapAxis L.x d.x, wrapAxis L.y d.y, wrapAxis L.z d.z⟩
  | none => d

/-- The parameters. -/
structure Env (K : Type) where
  /-- the length of a separation -/
  len : Vec K → K
  Y : Nat → Nat → Vec K → Cx K
  fourPi : K
  box : Option (Vec K)
  edges : List K

/-- The separation of a pair, as kdcount reports it. -/
def sep (e : Env K) (p s : Obj K) : K := e.len (dposOf e.box p s)

/-- `recen_pos` (threeptcf.py 77). -/
def dir (e : Env K) (p s : Obj K) : Vec K :=
  let d := dposOf e.box p s
  let r := sep e p s
  ⟨d.x / r, d.y / r, d.z / r⟩

/-- `numpy.searchsorted(edges, r, side='left')` of increasing edges (threeptcf.py 80). -/
def dig (e : Env K) (r : K) : Nat := e.edges.countP (· < r)

/-- `numpy.bincount(dig, weights, minlength=nbins+2)[1:-1]` at the bin `b` (threeptcf.py 98, 102). -/
def bincount (l : List (Nat × K)) (b : Nat) : K := ((l.filter fun x => x.1 = b + 1).map (·.2)).sum

/-- The dictionaries `alms` and `walms`: for `(l, m)` the arrays over the bins. -/
abbrev Alms (K : Type) := Nat → Nat → Option ((Nat → Cx K) × (Nat → Cx K))

/-- `callback` (threeptcf.py 63-104) on the pairs of a bunch. -/
def callback (e : Env K) (lms : List (Nat × Nat)) (p : Obj K) (bunch : List (Obj K)) (a : Alms K) : Alms K :=
  let valid := bunch.filter fun s => sep e p s > 0
  fun l m =>
    if (l, m) ∈ lms then
      let old := (a l m).getD (fun _ => ⟨0, 0⟩, fun _ => ⟨0, 0⟩)
      let r1 := bincount (valid.map fun s => (dig e (sep e p s), (e.Y l m (dir e p s)).re * s.w))
      let i1 := bincount (valid.map fun s => (dig e (sep e p s), (e.Y l m (dir e p s)).im * s.w))
      let w0 := p.w
      some (if m ≠ 0 then
          (fun b => ⟨(old.1 b).re + r1 b, (old.1 b).im + i1 b⟩, fun b => ⟨(old.2 b).re + w0 * r1 b, (old.2 b).im + w0 * i1 b⟩)
        else (fun b => ⟨(old.1 b).re + r1 b, (old.1 b).im⟩, fun b => ⟨(old.2 b).re + w0 * r1 b, (old.2 b).im⟩))
    else a l m

/-- The real part of `outer(walm, alm.conj())`, with the transpose added for `m != 0` (threeptcf.py 131-134). -/
def almWAlm (m : Nat) (x : (Nat → Cx K) × (Nat → Cx K)) (b1 b2 : Nat) : K :=
  let outer : Nat → Nat → K := fun i j => (x.2 i).re * (x.1 j).re + (x.2 i).im * (x.1 j).im
  if m ≠ 0 then outer b1 b2 + outer b2 b1 else outer b1 b2

/-- What a primary adds to `zeta` at multipole `l` (threeptcf.py 112-134): the dictionaries start empty, are filled by the
callbacks, and all their entries of this `l` are combined. -/
def primary (e : Env K) (lms : List (Nat × Nat)) (bunches : Obj K → List (List (Obj K))) (p : Obj K) (l b1 b2 : Nat) : K :=
  let a := (bunches p).foldl (fun a b => callback e lms p b a) (fun _ _ => none)
  (((lms.filter fun x => x.1 = l).map fun x => match a x.1 x.2 with
    | some y => almWAlm x.2 y b1 b2
    | none => 0)).sum

/-- The primaries, secondaries and enumeration of a rank. -/
structure Part (K : Type) where
  prim : List (Obj K)
  bunches : Obj K → List (List (Obj K))

/-- A result: the multipoles with their matrix. -/
abbrev Result (K : Type) := List (Nat × (Nat → Nat → K))

/-- `_run` (threeptcf.py 39-150) on all ranks. `max` of no multipoles and a column that appears twice raise. The log message divides by
a tenth of the largest load. -/
def run (e : Env K) (poles : List Nat) (parts : List (Part K)) : Except Err (Result K) :=
  let maxload := (parts.map fun q => q.prim.length).foldl max 0
  let chunkSize := maxload / 10
  let lms := poles.flatMap fun l => (List.range (l + 1)).map fun m => (l, m)
  if poles = [] then .error .valueError
  else if maxload > 0 ∧ chunkSize = 0 then .error .zeroDivision
  else if ¬ poles.Nodup then .error .valueError
  else .ok (poles.map fun l => (l, fun b1 b2 =>
    (parts.map fun q => (q.prim.map fun p => primary e lms q.bunches p l b1 b2).sum).sum / e.fourPi))

end NBK.Tpcf
