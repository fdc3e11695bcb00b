import Verif.Batch.Model
import Mathlib.Data.Rat.Defs
import Mathlib.Algebra.Order.Ring.Rat
import Mathlib.Algebra.BigOperators.Group.List.Basic

/-!
# Model of the pair counters (nbodykit/algorithms/pair_counters)

`corrfunc/base.py` (results and their reduction), `corrfunc/theory.py` and `corrfunc/mocks.py` (chunked calls),
`base.py` (`PairCountBase`), `domain.py` (`decompose_box_data`), `simbox.py` (`run`).

All ranks at once: a distributed array is the list of the ranks' arrays.  Floats are exact rationals or NaN
(`none`).  The compiled Corrfunc function is external: `corrfunc` below is its documented result (number of pairs,
mean weight product and mean separation of every bin), with unspecified averages in the bins without pairs.
The domain decomposition of pmesh (`GridND`) is external as well: a `Layout` says which ranks receive a particle.
-/
namespace NBK.Pairs

/-- A float: exact rational or NaN (`none`). -/
abbrev Val := Option ℚ

def Val.add (x y : Val) : Val := x.bind fun a => y.map fun b => a + b
def Val.mulNat (x : Val) (n : Nat) : Val := x.map fun a => a * n
def Val.divNat (x : Val) (n : Nat) : Val := x.map fun a => a / n

/-- Python exceptions raised by the modelled code. -/
inductive Err where
  | valueError | keyError | typeError
  deriving DecidableEq, Repr

/-- A structured array with a column `npairs` and other columns; flattened, with its shape. -/
structure Res where
  shape : List Nat
  npairs : List Nat
  cols : List (String × List Val)
  deriving DecidableEq, Repr

/-- `CorrfuncResult.valid` without `npairs` (corrfunc/base.py 26). -/
def valid : List String := ["weightavg", "savg", "ravg", "thetaavg", "rpavg"]

/-- `CorrfuncResult(data)`: keeps the valid columns (corrfunc/base.py 28-35). -/
def Res.init (data : Res) : Res := { data with cols := data.cols.filter fun c => valid.contains c.1 }

/-- `result[col]` (corrfunc/base.py 37-38) for a column other than `npairs`. -/
def Res.get (x : Res) (col : String) : Except Err (List Val) :=
  ((x.cols.find? fun c => c.1 == col).map fun c => c.2).elim (.error .keyError) .ok

/-- One column of `CorrfuncResult.__add__` (corrfunc/base.py 58-69): the pair-weighted sum, divided by the number
of pairs where there is any. -/
def addCol (n1 : List Nat) (v1 : List Val) (n2 : List Nat) (v2 : List Val) : List Val :=
  ((n1.zip v1).zip (n2.zip v2)).map fun p =>
    let s := (p.1.2.mulNat p.1.1).add (p.2.2.mulNat p.2.1)
    let n := p.1.1 + p.2.1
    if n > 0 then s.divNat n else s

/-- `CorrfuncResult.__add__` (corrfunc/base.py 54-71).  Arrays of different shape are a ValueError (numpy would
broadcast an array with a single cell; not modelled). -/
def Res.add (x y : Res) : Except Err Res :=
  if x.shape ≠ y.shape then .error .valueError else do
  let cols ← x.cols.mapM fun c => do
    let v ← y.get c.1
    pure (c.1, addCol x.npairs c.2 y.npairs v)
  pure ({ shape := x.shape, npairs := List.zipWith (· + ·) x.npairs y.npairs, cols := cols : Res }).init

/-- `pc.reshape((-1, m))` (corrfunc/base.py 40-42, 157-158). -/
def Res.reshape (x : Res) (m : Nat) : Except Err Res :=
  if m = 0 ∨ x.npairs.length % m ≠ 0 then .error .valueError
  else .ok { x with shape := [x.npairs.length / m, m] }

/-- `pc = this_pc if pc is None else pc + this_pc` (corrfunc/base.py 154). -/
def accum (pc : Option Res) (this : Res) : Except Err (Option Res) :=
  pc.elim (.ok (some this)) fun p => (p.add this).map some

/-- The chunk loop on one rank (corrfunc/base.py 143-154): `count` is the Corrfunc function as a function of the
primaries; `callback` passes `pos1[chunk]` and `w1[chunk]` (theory.py 54-58). -/
def runRank {A : Type} (count : List A → Res) (showProgress : Bool) (first : List A) : Except Err Res := do
  let N := if showProgress then 10 else 1
  let chunks := Batch.arraySplit (List.range first.length) N
  let pc ← chunks.foldlM (fun (pc : Option Res) chunk =>
    accum pc (count (chunk.filterMap fun i => first[i]?)).init) none
  pc.elim (.error .typeError) .ok

/-- A reduction tree: in which order `allreduce` combines the ranks' results. -/
inductive Tree where
  | leaf (rank : Nat)
  | node (l r : Tree)

/-- The ranks combined by a tree. -/
def Tree.ranks : Tree → List Nat
  | .leaf r => [r]
  | .node l r => l.ranks ++ r.ranks

/-- `comm.allreduce(pc)` with the default operation `+`, combining the ranks along a tree (corrfunc/base.py 161). -/
def reduce (pcs : List Res) : Tree → Except Err Res
  | .leaf r => (pcs[r]?).elim (.error .valueError) .ok
  | .node l r => do
    let x ← reduce pcs l
    let y ← reduce pcs r
    x.add y

/-- One row of the result (corrfunc/base.py 168-177). -/
structure Out where
  x : Val
  npairs : Nat
  wnpairs : Val
  deriving DecidableEq, Repr

/-- The structured array returned as a BinnedStatistic (corrfunc/base.py 163-180). -/
structure Pairs where
  shape : List Nat
  rows : List Out
  deriving DecidableEq, Repr

/-- Copying the reduced result to the output columns (corrfunc/base.py 172-177):
`wnpairs = weightavg * npairs`, zero where there is no pair. -/
def finish (sep : String) (pc : Res) : Except Err Pairs := do
  let x ← pc.get sep
  let w ← pc.get "weightavg"
  pure ⟨pc.shape, (pc.npairs.zip (x.zip w)).map fun p =>
    ⟨p.2.1, p.1, if p.1 = 0 then some 0 else p.2.2.mulNat p.1⟩⟩

/-- `MPICorrfuncCallable.__call__` on all ranks (corrfunc/base.py 101-180); `counts r` is the Corrfunc function on
rank `r`, whose secondaries are fixed; `m` is the number of bins of the second dimension (`none` in one
dimension); the length of `edges` matters only through `m`. -/
def callAll {A : Type} (counts : Nat → List A → Res) (sep : String) (m : Option Nat) (showProgress : Bool)
    (tree : Tree) (first : List (List A)) : Except Err Pairs := do
  let pcs ← first.zipIdx.mapM fun f => do
    let pc ← runRank (counts f.2) showProgress f.1
    m.elim (.ok pc) pc.reshape
  let pc ← reduce pcs tree
  finish sep pc

/-! ### The external Corrfunc function -/

/-- The pairs of a bin. -/
def pairsIn {A B : Type} (bin : A → B → Option Nat) (X : List A) (Y : List B) (b : Nat) : List (A × B) :=
  (X.flatMap fun a => Y.map fun c => (a, c)).filter fun p => bin p.1 p.2 == some b

/-- The result of a Corrfunc function with `weight_type='pair_product'` and `output_*avg=True` (theory.py 36-51):
for each of the `n` bins the number of pairs, the mean of the weight products and the mean separation; `junk` is
what it reports in bins without pairs.  Columns with the bin edges are also returned. -/
def corrfunc {A B : Type} (n : Nat) (bin : A → B → Option Nat) (w : A → B → ℚ) (s : A → B → ℚ) (sep : String)
    (junk : Val) (Y : List B) (X : List A) : Res where
  shape := [n]
  npairs := (List.range n).map fun b => (pairsIn bin X Y b).length
  cols :=
    [ ("binmin", (List.range n).map fun b => some (b : ℚ)),
      (sep, (List.range n).map fun b =>
        let P := pairsIn bin X Y b
        if P.length = 0 then junk else some ((P.map fun p => s p.1 p.2).sum / P.length)),
      ("weightavg", (List.range n).map fun b =>
        let P := pairsIn bin X Y b
        if P.length = 0 then junk else some ((P.map fun p => w p.1 p.2).sum / P.length)) ]

/-! ### Domain decomposition -/

/-- Where `domain.decompose` sends the particles: the rank of a primary (`smoothing=0`) and the ranks of a
secondary (`smoothing=rmax`), pmesh `GridND` (domain.py 117-131). -/
structure Layout (A B : Type) where
  owner : A → Nat
  ghosts : B → List Nat

/-- `layout.exchange` of the primaries on rank `d`: from every rank in order (domain.py 119-121). -/
def exchange1 {A B : Type} (lay : Layout A B) (D : List (List A)) (d : Nat) : List A :=
  D.flatMap fun l => l.filter fun a => lay.owner a == d

/-- `layout.exchange` of the secondaries on rank `d` (domain.py 128-130). -/
def exchange2 {A B : Type} (lay : Layout A B) (D : List (List B)) (d : Nat) : List B :=
  D.flatMap fun l => l.filter fun b => (lay.ghosts b).contains d

/-- The secondaries on rank `d` (domain.py 124-130): all of them when the maximum separation exceeds a quarter
of the largest box side, otherwise those sent by the decomposition. -/
def secondaries {A B : Type} (lay : Layout A B) (smoothing boxMax : ℚ) (D : List (List B)) (d : Nat) : List B :=
  if smoothing > boxMax * (1 / 4) then D.flatten else exchange2 lay D d

/-- `SimulationBoxPairCount.run` (simbox.py 128-206) with exact Corrfunc counts: decomposition of both sources on
the `P` ranks, then the chunked counts and their reduction.  (`second is None` means `D2 = D1`.) -/
def pairCount {A B : Type} (n : Nat) (bin : A → B → Option Nat) (w s : A → B → ℚ) (sep : String) (junk : Val)
    (m : Option Nat) (showProgress : Bool) (tree : Tree) (lay : Layout A B) (smoothing boxMax : ℚ)
    (D1 : List (List A)) (D2 : List (List B)) : Except Err Pairs :=
  callAll (fun d => corrfunc n bin w s sep junk (secondaries lay smoothing boxMax D2 d)) sep m showProgress tree
    ((List.range D1.length).map (exchange1 lay D1))

/-! ### `PairCountBase.__init__` -/

inductive Mode where
  | d1 | d2 | projected | angular
  deriving DecidableEq, Repr

/-- `_mode in valid_modes` and the name of the mode (base.py 14-16). -/
def Mode.ofString : String → Option Mode
  | "1d" => some .d1
  | "2d" => some .d2
  | "projected" => some .projected
  | "angular" => some .angular
  | _ => none

/-- `numpy.min(edges)` of a non-empty array. -/
def minEdge : List ℚ → Option ℚ
  | [] => none
  | e :: es => some (es.foldl min e)

/-- The argument checks of `PairCountBase.__init__` (base.py 13-33). -/
def checkArgs (mode : String) (edges : List ℚ) (Nmu : Option Nat) (pimax : Option ℚ) : Except Err Mode :=
  (Mode.ofString mode).elim (.error .valueError) fun md =>
  (minEdge edges).elim (.error .valueError) fun e =>
  if e ≤ 0 then .error .valueError else
  if md = .d2 ∧ Nmu = none then .error .valueError else
  if Nmu ≠ none ∧ md ≠ .d2 then .error .valueError else
  if md = .projected ∧ pimax = none then .error .valueError else
  if pimax ≠ none ∧ md ≠ .projected then .error .valueError else
  if md = .projected ∧ (pimax.elim false fun p => decide (p < 1)) then .error .valueError else
  .ok md

/-- `binning_dims[0] + 'avg'` of the Corrfunc wrapper of a mode (theory.py 66, 82, 104; mocks.py 55, 78, 95;
corrfunc/base.py 173). -/
def sepColumn : Mode → String
  | .d1 => "ravg"
  | .d2 => "savg"
  | .projected => "rpavg"
  | .angular => "thetaavg"

/-- The `second` argument: `None`, the same object as `first`, or another catalog. -/
inductive Second where
  | none
  | same
  | other (w : List (List ℚ))

/-- `comm.allreduce` of one number per rank. -/
def allsum (l : List ℚ) : ℚ := l.sum

/-- `attrs['total_wnpairs']` (base.py 51-60); the arguments are the weights of the sources on every rank. -/
def totalWnpairs (first : List (List ℚ)) : Second → ℚ
  | .none | .same =>
    let w1 := allsum (first.map fun l => l.sum)
    let w2 := allsum (first.map fun l => (l.map fun x => x ^ 2).sum)
    1 / 2 * (w1 ^ 2 - w2)
  | .other second =>
    let w1 := allsum (first.map fun l => l.sum)
    let w2 := allsum (second.map fun l => l.sum)
    1 / 2 * w1 * w2

/-! ### Separation bins and domains of a periodic simulation box -/

/-- A position of the box, or the three box sides. -/
structure Pos where
  x : ℚ
  y : ℚ
  z : ℚ
  deriving DecidableEq, Repr

/-- Squared distance of two coordinates on a circle of length `L` (nearest image). -/
def axisSq (L a b : ℚ) : ℚ := min ((a - b) ^ 2) (min ((a - (b + L)) ^ 2) ((a - (b - L)) ^ 2))

/-- Squared separation with periodic boundaries (`periodic=True`, theory.py 25-31, 47-48). -/
def sep2 (box a b : Pos) : ℚ := axisSq box.x a.x b.x + axisSq box.y a.y b.y + axisSq box.z a.z b.z

/-- Squared separation perpendicular to the line of sight `z`. -/
def rp2 (box a b : Pos) : ℚ := axisSq box.x a.x b.x + axisSq box.y a.y b.y

/-- The bin of a squared separation: `edges[i] ≤ s < edges[i+1]` (Corrfunc's convention; the edges are positive). -/
def binOf (edges : List ℚ) (s2 : ℚ) : Option Nat :=
  (List.range (edges.length - 1)).find? fun i =>
    decide (edges.getD i 0 ^ 2 ≤ s2) && decide (s2 < edges.getD (i + 1) 0 ^ 2)

/-- Flat index of a two-dimensional bin; `m` bins in the second dimension (corrfunc/base.py 156-158). -/
def bin2 (m : Nat) (i j : Option Nat) : Option Nat :=
  i.bind fun i => j.bind fun j => if j < m then some (i * m + j) else none

/-- `mode='1d'`: bins of the separation. -/
def bin1d (box : Pos) (edges : List ℚ) (a b : Pos) : Option Nat := binOf edges (sep2 box a b)

/-- `mode='2d'`: bins of the separation and of any second coordinate `mu`. -/
def bin2d (box : Pos) (edges : List ℚ) (m : Nat) (mu : Pos → Pos → Option Nat) (a b : Pos) : Option Nat :=
  bin2 m (binOf edges (sep2 box a b)) (mu a b)

/-- `mode='projected'` with the line of sight `z`: bins of the perpendicular separation and of the parallel
separation up to `pimax`. -/
def binProj (box : Pos) (edges : List ℚ) (m : Nat) (pimax : ℚ) (a b : Pos) : Option Nat :=
  bin2 m (binOf edges (rp2 box a b))
    (binOf ((List.range (m + 1)).map fun (i : Nat) => pimax * i / m) (axisSq box.z a.z b.z))

/-- `numpy.max(edges)` (simbox.py 141). -/
def maxEdge (edges : List ℚ) : ℚ := edges.foldl max 0

/-- The cell of a coordinate in `linspace(0, L, n + 1)` (domain.py 107-111). -/
def cellOf (n : Nat) (L x : ℚ) : Nat := (x * n / L).floor.toNat

/-- A cell of the axis, enlarged by `smoothing`, contains an image of the coordinate. -/
def nearCell (n : Nat) (L smoothing : ℚ) (k : Nat) (y : ℚ) : Bool :=
  [y, y + L, y - L].any fun v =>
    decide (L * k / n - smoothing ≤ v) && decide (v ≤ L * (k + 1) / n + smoothing)

/-- The `GridND` decomposition of a periodic box on `np[0] × np[1] × np[2]` ranks (domain.py 107-130; pmesh is
external): rank `(i, j, k)` owns a cell, and receives the secondaries with an image within `smoothing` of it. -/
def gridLayout (box : Pos) (np : Nat × Nat × Nat) (smoothing : ℚ) : Layout Pos Pos where
  owner a := (cellOf np.1 box.x a.x * np.2.1 + cellOf np.2.1 box.y a.y) * np.2.2 + cellOf np.2.2 box.z a.z
  ghosts b := (List.range (np.1 * np.2.1 * np.2.2)).filter fun d =>
    nearCell np.1 box.x smoothing (d / np.2.2 / np.2.1) b.x &&
    nearCell np.2.1 box.y smoothing (d / np.2.2 % np.2.1) b.y &&
    nearCell np.2.2 box.z smoothing (d % np.2.2) b.z

/-- `a % L` with the sign of the positive `L` (domain.py 88-98, periodic). -/
def wrap (L x : ℚ) : ℚ := x - L * (x / L).floor

end NBK.Pairs
