import Verif.PcfObj.Model
import Verif.BoxPairs.Model

/-!
# Model of `SimulationBox2PCF` from the particles to the correlation function, on any number of ranks

The pair counts of `SimulationBoxPairCount` (algorithms/pair_counters/simbox.py, base.py, domain.py, corrfunc/) of distributed catalogs, put
into the objects of `Verif.PcfObj` (algorithms/paircount_tpcf/). Numbers are rational; a mean separation is the mean of `root` of the squared
separations. The modes '1d', '2d' and 'projected'; the angular mode and the surveys are left to the surrounding `Env`. The catalogs live on one
communicator and have the columns asked for.
-/
namespace NBK.BoxTpcf
open NBK

abbrev Pos := Pairs.Pos
abbrev Err := PcfObj.Err
abbrev Bins := PcfObj.Bins

/-- A row of a catalog: its position and its weight. -/
structure Part where
  pos : Pos
  w : ℚ
  deriving DecidableEq

/-- A catalog: the rows on every rank, and `attrs['BoxSize']`. -/
structure Cat where
  rows : List (List Part)
  box : Option Pos := none
  deriving DecidableEq

/-- What the ranks do: the order of the reduction, and the decomposition of a box by pmesh's `GridND` for a squared smoothing length
(domain.py 106-131). -/
structure Mach where
  tree : Pairs.Tree
  lay : Pos → ℚ → Pairs.Layout Pos Pos

/-- The box of `verify_input_sources` (base.py 140-158). -/
def boxSize (first second : Cat) (arg : Option Pos) : Except Err Pos :=
  let box := arg.getD (first.box.getD ⟨0, 0, 0⟩)
  if box = ⟨0, 0, 0⟩ then .error .valueError
  else match first.box, second.box with
    | some b1, some b2 => if b1 ≠ b2 then .error .valueError else if b1 ≠ box then .error .valueError else .ok box
    | _, _ => .ok box

/-- `BoxSize.min()` (simbox.py 121). -/
def minSide (box : Pos) : ℚ := min box.x (min box.y box.z)

/-- `BoxSize.max()` (domain.py 124). -/
def maxSide (box : Pos) : ℚ := max box.x (max box.y box.z)

/-- Separations of more than half the box (simbox.py 120-123). -/
def tooLarge (box : Pos) (b : Bins) : Bool :=
  decide (1 / 2 * minSide box < Pairs.maxEdge b.edges) || (b.mode == "projected" && decide (1 / 2 * minSide box < b.pimax.getD 0))

/-- What is checked before any pair is counted (simbox.py 94-123, base.py 11-33, and in `run` simbox.py 173-177 and theory.py 25-32): the line of
sight and the box. -/
def checks (los : BoxPairs.Los) (periodic : Bool) (arg : Option Pos) (b : Bins) (first second : Cat) : Except Err (Int × Pos) :=
  match BoxPairs.parseLos los with
  | .error _ => .error .valueError
  | .ok l => (boxSize first second arg).bind fun box =>
    match Pairs.checkArgs b.mode b.edges b.Nmu b.pimax with
    | .error _ => .error .valueError
    | .ok _ =>
      if periodic && tooLarge box b then .error .valueError
      else if l.2 = false then .error .indexError
      else if periodic && !(decide (box.y = box.x) && decide (box.z = box.x)) then .error .other
      else .ok (l.1, box)

/-- `pos[:, axes_order]`: the line of sight last (simbox.py 156-159, 176-177). -/
def order (los : Int) (p : Pos) : Pos :=
  if los = 0 then ⟨p.y, p.z, p.x⟩ else if los = 1 then ⟨p.x, p.z, p.y⟩ else p

/-- `pos %= BoxSize` if periodic (domain.py 88-98). -/
def wrapPos (periodic : Bool) (box p : Pos) : Pos :=
  if periodic then ⟨Pairs.wrap box.x p.x, Pairs.wrap box.y p.y, Pairs.wrap box.z p.z⟩ else p

/-- The squared difference of two coordinates for Corrfunc: that of the nearest image if periodic (theory.py 47-48). -/
def axis (periodic : Bool) (L a b : ℚ) : ℚ := if periodic then Pairs.axisSq L a b else (a - b) ^ 2

/-- The squared separation across the line of sight, the third axis; the box has the side `L` (theory.py 25-32). -/
def perp2 (periodic : Bool) (L : ℚ) (a b : Pos) : ℚ := axis periodic L a.x b.x + axis periodic L a.y b.y

/-- The squared separation along the line of sight. -/
def par2 (periodic : Bool) (L : ℚ) (a b : Pos) : ℚ := axis periodic L a.z b.z

/-- The edges of the second dimension (theory.py 92, 113). -/
def edges2 (b : Bins) : Option (List ℚ) := (PcfObj.runBins .box b).2[1]?

/-- The bins of the second dimension (corrfunc/base.py 157-158). -/
def bins2 (b : Bins) : Option Nat := (edges2 b).map fun e => e.length - 1

/-- The number of bins. -/
def nbins (b : Bins) : Nat := ((PcfObj.runBins .box b).2.map fun e => e.length - 1).prod

/-- The bin of a pair for Corrfunc's `DD`, `DDsmu` and `DDrppi`, from the squared separations across and along the line of sight: the edges of the
first dimension are those given; `mu` is the cosine of the angle to the line of sight. A bin holds its lower edge and not its upper one. -/
def binOf (b : Bins) (perp par : ℚ) : Option Nat :=
  match bins2 b with
  | none => Pairs.binOf b.edges (perp + par)
  | some m =>
    if b.mode = "2d" then
      Pairs.bin2 m (Pairs.binOf b.edges (perp + par)) (Pairs.binOf ((edges2 b).getD []) (par / (perp + par)))
    else Pairs.bin2 m (Pairs.binOf b.edges perp) (Pairs.binOf ((edges2 b).getD []) par)

/-- The squared separation whose root is averaged: that of the first dimension (theory.py 66, 82, 104). -/
def sepOf (b : Bins) (perp par : ℚ) : ℚ := if b.mode = "projected" then perp else perp + par

/-- The bin of two particles. -/
def bin (los : Int) (periodic : Bool) (box : Pos) (b : Bins) (p q : Part) : Option Nat :=
  binOf b (perp2 periodic box.x (order los p.pos) (order los q.pos)) (par2 periodic box.x (order los p.pos) (order los q.pos))

/-- The separation of two particles. -/
def sep (root : ℚ → ℚ) (los : Int) (periodic : Bool) (box : Pos) (b : Bins) (p q : Part) : ℚ :=
  root (sepOf b (perp2 periodic box.x (order los p.pos) (order los q.pos)) (par2 periodic box.x (order los p.pos) (order los q.pos)))

/-- The squared `smoothing` (simbox.py 161-164). -/
def smoothing2 (b : Bins) : ℚ :=
  if b.mode = "projected" then Pairs.maxEdge b.edges ^ 2 + b.pimax.getD 0 ^ 2 else Pairs.maxEdge b.edges ^ 2

/-- The rows with the positions that are decomposed (domain.py 86-99). -/
def wrapped (periodic : Bool) (box : Pos) (c : Cat) : List (List Part) :=
  c.rows.map fun l => l.map fun p => { p with pos := wrapPos periodic box p.pos }

/-- The name of the mean separation among Corrfunc's results (theory.py 66, 82, 104). -/
def modeOf (b : Bins) : Pairs.Mode := if b.mode = "1d" then .d1 else if b.mode = "2d" then .d2 else .projected

/-- A value of the output array. -/
def val : Option ℚ → Binned.Val
  | some q => .fin q
  | none => .nan

/-- `run` (simbox.py 128-225): decomposition of both sources, counts on every rank, and their sum. Corrfunc leaves the averages of an empty bin at
zero. `smoothing > 0.25 * BoxSize.max()` (domain.py 124) is asked of the squares. -/
def runBox (root : ℚ → ℚ) (M : Mach) (sp : Bool) (los : Int) (periodic : Bool) (box : Pos) (b : Bins) (first second : Cat) :
    Except Pairs.Err Pairs.Pairs :=
  let lay := M.lay box (smoothing2 b)
  Pairs.pairCount (nbins b) (bin los periodic box b) (fun p q => p.w * q.w) (sep root los periodic box b) (Pairs.sepColumn (modeOf b))
    (some 0) (bins2 b) sp M.tree ⟨fun p => lay.owner p.pos, fun p => lay.ghosts p.pos⟩ (smoothing2 b) (maxSide box ^ 2 / 4)
    (wrapped periodic box first) (wrapped periodic box second)

/-- The weights of a catalog on every rank. -/
def weights (c : Cat) : List (List ℚ) := c.rows.map fun l => l.map Part.w

/-- `SimulationBoxPairCount(mode, first, edges, BoxSize, periodic, second, los, Nmu, pimax, show_progress)` (simbox.py 89-225, base.py 11-60):
`same` tells whether `second` is `first`. -/
def countBox (root : ℚ → ℚ) (M : Mach) (sp : Bool) (los : BoxPairs.Los) (periodic : Bool) (arg : Option Pos) (b : Bins) (first : Cat)
    (second : Option Cat) (same : Bool) : Except Err PcfObj.Count :=
  (checks los periodic arg b first (second.getD first)).bind fun lb =>
  match runBox root M sp lb.1 periodic lb.2 b first (second.getD first) with
  | .error _ => .error .valueError
  | .ok out => .ok
    { total := Pairs.totalWnpairs (weights first) (if same then .same else second.elim .none fun c => .other (weights c))
      isCross := second.isSome && !same
      sep := out.rows.map fun o => val o.x
      rows := out.rows.map fun o => (o.npairs, o.wnpairs.getD 0) }

/-- A `BoxSize` keyword of three numbers. -/
def toPos : List ℚ → Option Pos
  | [x, y, z] => some ⟨x, y, z⟩
  | _ => none

def ofPos (p : Pos) : List ℚ := [p.x, p.y, p.z]

/-- The keyword `BoxSize`; one number, which numpy would take three times, is left out. -/
def boxArg : Option (List ℚ) → Except Err (Option Pos)
  | none => .ok none
  | some l => match toPos l with
    | some p => .ok (some p)
    | none => .error .valueError

/-- What `SimulationBox2PCF` is given besides the catalogs: `los`, `show_progress`. -/
structure Kw where
  los : BoxPairs.Los := .str ['z']
  showProgress : Bool := false

/-- The surroundings of a `SimulationBox2PCF` of the catalogs `C` (tpcf.py 280-336): counts, sizes and boxes are those of the catalogs. -/
def envOf (E : PcfObj.Env) (root : ℚ → ℚ) (mach : Nat → Option Nat → Mach) (k : Kw) (C : Nat → Cat) (g : PcfObj.Args) : PcfObj.Env :=
  { E with
    count := fun c b i j =>
      if c = .box ∧ b.mode ≠ "angular" then
        (boxArg g.box).bind fun box =>
        countBox root (mach i j) k.showProgress k.los ((PcfObj.periodicOf g).getD false) box b (C i) (j.map C) (decide (j = some i))
      else E.count c b i j
    csize := fun i => ((C i).rows.map List.length).sum
    boxOf := fun i => (C i).box.map ofPos }

/-- `SimulationBox2PCF(mode, data1, edges, ...)` of catalogs (tpcf.py 198-336). -/
def tpcf (E : PcfObj.Env) (root : ℚ → ℚ) (mach : Nat → Option Nat → Mach) (k : Kw) (C : Nat → Cat) (g : PcfObj.Args) :
    Except Err PcfObj.Tpcf :=
  PcfObj.new (envOf E root mach k C g) g

end NBK.BoxTpcf
