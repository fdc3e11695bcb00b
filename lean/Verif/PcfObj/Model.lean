import Verif.Binned.Model
import Verif.Pairs.Model
import Verif.Estim.Model

/-!
# Model of the objects of the pair counts and of the two-point correlation function

`PairCountBase` with its results, `save` and `load` (algorithms/pair_counters/base.py, simbox.py, mocksurvey.py, corrfunc/), and
`SimulationBox2PCF` and `SurveyData2PCF` from the arguments to the saved results (algorithms/paircount_tpcf/tpcf.py). The counts
themselves are those of `Verif.Pairs`, given here as a function of the catalogs, and the estimators those of `Verif.Estim`. Numbers are
rational; pi and the area of a cap are parameters. Catalogs are numbers, equal numbers are the same object.
-/
namespace NBK.PcfObj
open NBK

inductive Err where
  | valueError | typeError | indexError | keyError | assertionError | other
  deriving DecidableEq, Repr

def Err.ofBinned : Binned.Err → Err
  | .valueError => .valueError
  | .indexError => .indexError
  | .typeError => .typeError
  | .keyError => .keyError
  | _ => .other

def lift {α : Type} : Except Binned.Err α → Except Err α
  | .ok a => .ok a
  | .error e => .error (.ofBinned e)

/-- `SimulationBoxPairCount` or `SurveyDataPairCount`. -/
inductive Counter where
  | box | survey
  deriving DecidableEq, Repr

/-- The arguments that fix the bins. -/
structure Bins where
  mode : String
  edges : List ℚ
  Nmu : Option Nat := none
  pimax : Option ℚ := none
  deriving DecidableEq

/-- What a pair counter finds: `total_wnpairs`, `is_cross` and per bin the mean separation, `npairs` and `wnpairs`. -/
structure Count where
  total : ℚ
  isCross : Bool
  sep : List Binned.Val
  rows : List (Nat × ℚ)

/-- `numpy.linspace(a, b, n)`. -/
def linspace (a b : ℚ) (n : Nat) : List ℚ := (List.range n).map fun i : Nat => a + i * ((b - a) / (n - 1 : Nat))

/-- The dimensions and edges of the Corrfunc wrapper that the counter chooses by the mode (simbox.py 206-220, mocksurvey.py 171-182, theory.py
66-117, mocks.py 55-110), with `s` renamed to `r` (corrfunc/base.py 164-165). -/
def runBins (c : Counter) (b : Bins) : List String × List (List ℚ) :=
  if b.mode = "1d" then
    match c with
    | .box => (["r"], [b.edges])
    | .survey => (["r", "mu"], [b.edges, linspace 0 1 2])
  else if b.mode = "2d" then (["r", "mu"], [b.edges, linspace 0 1 (b.Nmu.getD 0 + 1)])
  else if b.mode = "projected" then
    match c with
    | .box => (["rp", "pi"], [b.edges, linspace 0 (b.pimax.getD 0) ⌊b.pimax.getD 0 + 1⌋.toNat])
    | .survey => (["rp", "pi"], [b.edges, linspace 0 (b.pimax.getD 0) (⌊b.pimax.getD 0⌋.toNat + 1)])
  else (["theta"], [b.edges])

/-- The structured array of the pairs (corrfunc/base.py 167-180). -/
def pairsData (dim : String) (x : Count) : List Binned.Col :=
  [⟨dim, false, x.sep⟩, ⟨"npairs", true, x.rows.map fun r => .fin (r.1 : ℚ)⟩, ⟨"wnpairs", false, x.rows.map fun r => .fin r.2⟩]

/-- A `BinnedStatistic` whose metadata is `total_wnpairs` or nothing. -/
abbrev BS := Binned.BS (Option ℚ)

/-- The constructor of `BinnedStatistic` without coordinates. -/
def make (dims : List String) (edges : List (List ℚ)) (shape : List Nat) (data : List Binned.Col) (fts : List String) (attrs : Option ℚ) :
    Except Err BS :=
  lift (Binned.init dims edges shape data fts none attrs)

/-- `pairs` of a counter (corrfunc/base.py 152-183, simbox.py 223-225, mocksurvey.py 185-191): in one dimension the survey has a single bin of
`mu`, which is squeezed. -/
def pairsOf (c : Counter) (b : Bins) (x : Count) : Except Err BS :=
  let de := runBins c b
  (make de.1 de.2 (de.2.map fun e => e.length - 1) (pairsData (de.1.headD "") x) ["npairs", "wnpairs"] none).bind fun p =>
    if c = .survey ∧ b.mode = "1d" then lift (Binned.squeeze { p with attrs := some x.total } "mu")
    else .ok { p with attrs := some x.total }

/-- `attrs` of a pair count, as far as it matters for the results. -/
structure PCAttrs where
  bins : Bins
  total : ℚ
  isCross : Bool
  deriving DecidableEq

structure PC where
  attrs : PCAttrs
  pairs : BS

/-- `__init__` and `run` of a pair counter (base.py 11-60, simbox.py 89-225, mocksurvey.py 94-191). -/
def newPC (c : Counter) (b : Bins) (x : Except Err Count) : Except Err PC :=
  match Pairs.checkArgs b.mode b.edges b.Nmu b.pimax with
  | .error _ => .error .valueError
  | .ok _ => x.bind fun x => (pairsOf c b x).bind fun p => .ok ⟨⟨b, x.total, x.isCross⟩, p⟩

/-- `__getstate__` (base.py 62-63): the array, of some shape, and `attrs`. -/
structure PCState where
  shape : List Nat
  data : List Binned.Col
  attrs : PCAttrs

def getstatePC (o : PC) : PCState := ⟨o.pairs.shape, o.pairs.data, o.attrs⟩

/-- The dimensions and edges that `__setstate__` makes from `attrs` (base.py 67-88). -/
def stateBins (b : Bins) : Except Err (List String × List (List ℚ)) :=
  if b.mode = "1d" then .ok (["r"], [b.edges])
  else if b.mode = "2d" then
    match b.Nmu with
    | some n => .ok (["r", "mu"], [b.edges, linspace 0 1 (n + 1)])
    | none => .error .typeError
  else if b.mode = "projected" then
    match b.pimax with
    | some p => .ok (["rp", "pi"], [b.edges, linspace 0 p ⌊p + 1⌋.toNat])
    | none => .error .typeError
  else if b.mode = "angular" then .ok (["theta"], [b.edges])
  else .error .valueError

/-- `__setstate__` (base.py 65-91). -/
def setstatePC (s : PCState) : Except Err PC :=
  (stateBins s.attrs.bins).bind fun de =>
  (make de.1 de.2 s.shape s.data ["npairs", "wnpairs"] none).bind fun p => .ok ⟨s.attrs, p⟩

/-- `save` followed by `load` (base.py 93-126); JSON is the subject of `Verif.Json`. -/
def saveLoadPC (o : PC) : Except Err PC := setstatePC (getstatePC o)

/-! ### The correlation functions -/

/-- `SimulationBox2PCF` or `SurveyData2PCF`. -/
inductive Kind where
  | sim | survey
  deriving DecidableEq, Repr

/-- The catalogs and keywords. `periodic` and `BoxSize` are keywords of the box only; of the keywords `**config` only the boolean ones are kept. -/
structure Args where
  kind : Kind
  bins : Bins
  data1 : Nat
  data2 : Option Nat := none
  randoms1 : Option Nat := none
  randoms2 : Option Nat := none
  R1R2 : Option PC := none
  periodic : Bool := true
  box : Option (List ℚ) := none
  config : List (String × Bool) := []

/-- The world outside the model: pi, the area of a cap, the counts of two catalogs, the size of a catalog, its attribute `BoxSize`, and the
catalog of the objects within the sphere, a new object for each of the two arguments; the version of numpy and the default list of `reindex` as in `Verif.Binned`. -/
structure Env where
  pi : ℚ
  cap : ℚ → ℚ
  count : Counter → Bins → Nat → Option Nat → Except Err Count
  csize : Nat → Nat
  boxOf : Nat → Option (List ℚ)
  sphere : Nat → Nat → Nat
  oldNumpy : Bool
  world : Binned.World

/-- `attrs.get('periodic')` after `attrs.update(config)` (tpcf.py 84-87). -/
def periodicOf (g : Args) : Option Bool :=
  match g.kind with
  | .sim => some g.periodic
  | .survey => (g.config.find? fun p => p.1 = "periodic").map Prod.snd

/-- The pair counter (tpcf.py 88-92): `'periodic' in attrs`. -/
def counterOf (g : Args) : Counter := if (periodicOf g).isSome then .box else .survey

/-- Whether the randoms are analytic (tpcf.py 95). -/
def isAnalytic (g : Args) : Bool := periodicOf g = some true && g.randoms1.isNone

/-- nan or infinite values are `none` in `Verif.Estim`. -/
def val : Option ℚ → Binned.Val
  | some q => .fin q
  | none => .nan

/-- `AnalyticUniformRandoms.get_filling_factor` (estimators.py 76-110), flattened. -/
def filling (e : Env) (mode : String) (edges : List (List ℚ)) (box : List ℚ) : List ℚ :=
  if mode = "1d" then Estim.ff1d e.pi box.prod (edges.headD [])
  else if mode = "2d" then (Estim.ff2d e.pi box.prod (edges.headD []) (edges.getD 1 [])).flatten
  else if mode = "projected" then (Estim.ffProj e.pi box.prod (edges.headD []) (edges.getD 1 [])).flatten
  else (Estim.diff ((edges.headD []).map e.cap)).map fun a => a / (4 * e.pi)

/-- `_create_tpcf_result` (estimators.py 266-276). -/
def corrOf (d : BS) (cf : List (Option ℚ)) : Except Err BS :=
  let x := d.dims.headD ""
  make d.dims d.edges d.shape
    [⟨"corr", false, cf.map val⟩, ⟨x, false, (d.data.find? fun c => c.name = x).elim [] Binned.Col.vals⟩] [] none

/-- `pairs` of the analytic randoms (estimators.py 112-140). -/
def analyticPairs (d : BS) (rr : ℚ × List ℚ) : Except Err BS :=
  (make d.dims d.edges d.shape
    [⟨"npairs", false, rr.2.map .fin⟩, ⟨"wnpairs", false, rr.2.map .fin⟩] [] none).bind fun p => .ok { p with attrs := some rr.1 }

/-- A catalog restricted to the sphere, which needs the attribute `BoxSize` of the catalog (tpcf.py 97-100, 492-507). -/
def restrict (e : Env) (arg c : Nat) : Except Err Nat :=
  match e.boxOf c with
  | none => .error .keyError
  | some _ => .ok (e.sphere arg c)

def restrictOpt (e : Env) : Option Nat → Except Err (Option Nat)
  | none => .ok none
  | some c => (restrict e 1 c).bind fun c => .ok (some c)

/-- The data catalogs of the natural estimator (tpcf.py 96-105). -/
def naturalData (e : Env) (g : Args) : Except Err (Nat × Option Nat) :=
  if g.bins.mode = "angular" then
    (restrict e 0 g.data1).bind fun d1 => (restrictOpt e g.data2).bind fun d2 => .ok (d1, d2)
  else .ok (g.data1, g.data2)

/-- The results. The attribute `wp` may be missing (`none`), or be `None`. -/
structure Tpcf where
  bins : Bins
  D1D2 : BS
  D1R2 : Option BS
  D2R1 : Option BS
  R1R2 : Option BS
  corr : BS
  wp : Option (Option BS)

/-- The pair count as `Verif.Estim` has it. -/
def Count.pc (x : Count) : Estim.PC := ⟨x.total, x.rows⟩

/-- The counts of the two catalogs after the checks of the arguments, with the `pairs` object. -/
def counted (e : Env) (c : Counter) (b : Bins) (first : Nat) (second : Option Nat) : Except Err (Count × BS) :=
  match Pairs.checkArgs b.mode b.edges b.Nmu b.pimax with
  | .error _ => .error .valueError
  | .ok _ => (e.count c b first second).bind fun x => (pairsOf c b x).bind fun p => .ok (x, p)

/-- The natural estimator (tpcf.py 95-117, estimators.py 234-264). The box is the keyword, else that of the catalog (base.py 140-147); a
keyword `R1R2` is not looked at. -/
def runNatural (e : Env) (g : Args) : Except Err Tpcf :=
  (naturalData e g).bind fun ds =>
  (counted e (counterOf g) g.bins ds.1 ds.2).bind fun dd =>
    let N1 : ℚ := e.csize ds.1
    let N2 : Option ℚ := if dd.1.isCross then ds.2.map fun c => (e.csize c : ℚ) else none
    let box := g.box.getD ((e.boxOf ds.1).getD [0, 0, 0])
    let ff := filling e g.bins.mode dd.2.edges box
    (analyticPairs dd.2 (Estim.analytic ff N1 N2)).bind fun rr =>
    (corrOf dd.2 (Estim.natural ff N1 N2 dd.1.pc)).bind fun cf =>
    .ok ⟨g.bins, dd.2, none, none, some rr, cf, none⟩

/-- A column of counts of a given object. -/
def columnOf (p : BS) (name : String) : List Binned.Val := (p.data.find? fun c => c.name = name).elim [] Binned.Col.vals

/-- `R1R2` as given by the user, as `Verif.Estim` has it. -/
def givenPC (o : PC) : Estim.PC :=
  ⟨o.attrs.total, List.zipWith (fun n w => ((n.rat?.getD 0).num.toNat, w.rat?.getD 0)) (columnOf o.pairs "npairs") (columnOf o.pairs "wnpairs")⟩

/-- The random pairs: those given, or counted (estimators.py 168-176). -/
def randomPairs (e : Env) (g : Args) (r1 r2 : Nat) : Except Err (Estim.PC × BS) :=
  match g.R1R2 with
  | some o => .ok (givenPC o, o.pairs)
  | none => (counted e (counterOf g) g.bins r1 (some r2)).bind fun x => .ok (x.1.pc, x.2)

/-- `D2R1` (estimators.py 188-193). -/
def secondPairs (e : Env) (g : Args) (r1 : Nat) (dr : Count × BS) : Except Err (Count × BS) :=
  match g.data2 with
  | some d => counted e (counterOf g) g.bins d (some r1)
  | none => .ok dr

/-- The Landy-Szalay estimator (tpcf.py 119-138, estimators.py 142-232). Random pairs of another shape cannot select the bins (IndexError);
the numpy rules by which some of them could are left out. -/
def runLS (e : Env) (g : Args) (r1 : Nat) : Except Err Tpcf :=
  let r2 := g.randoms2.getD r1
  (randomPairs e g r1 r2).bind fun rr =>
  (counted e (counterOf g) g.bins g.data1 g.data2).bind fun dd =>
  (counted e (counterOf g) g.bins g.data1 (some r2)).bind fun dr =>
  (secondPairs e g r1 dr).bind fun rd =>
    if rr.2.shape ≠ dd.2.shape then .error .indexError
    else
      let cf := (dd.1.rows.zip (dr.1.rows.zip (rd.1.rows.zip rr.1.rows))).map fun p =>
        Estim.lsBin dd.1.total dr.1.total rd.1.total rr.1.total p.1.2 p.2.1.2 p.2.2.1.2 p.2.2.2
      (corrOf dd.2 cf).bind fun cf => .ok ⟨g.bins, dd.2, some dr.2, some rd.2, some rr.2, cf, none⟩

/-- `BasePairCount2PCF.run` (tpcf.py 63-130). -/
def runBase (e : Env) (g : Args) : Except Err Tpcf :=
  if isAnalytic g then runNatural e g
  else match g.randoms1 with
    | none => .error .valueError
    | some r1 => runLS e g r1

/-- Rows of `m` entries. -/
def rowsOf {α : Type} (n m : Nat) (l : List α) : List (List α) := (List.range n).map fun i => (l.drop (i * m)).take m

/-- `_compute_wp` (tpcf.py 474-490). -/
def computeWp (e : Env) (corr : BS) : Except Err BS :=
  let pi := corr.edges.getD 1 []
  let vals := (columnOf corr "corr").map Binned.Val.rat?
  let wp := (rowsOf ((corr.edges.headD []).length - 1) (pi.length - 1) vals).map fun row => Estim.wp row pi
  (lift (Estim.wpObject e.oldNumpy e.world corr)).bind fun t => lift (Binned.setitem t "corr" false (wp.map val))

/-- `__init__` and `run` of the two classes (tpcf.py 280-336, 419-472). -/
def new (e : Env) (g : Args) : Except Err Tpcf :=
  (runBase e g).bind fun o =>
    if g.bins.mode = "projected" then (computeWp e o.corr).bind fun w => .ok { o with wp := some (some w) }
    else .ok o

/-- An array with its shape. -/
abbrev Arr := List Nat × List Binned.Col

/-- `__getstate__` (tpcf.py 132-146). -/
structure State where
  corr : Arr
  dims : List String
  edges : List (List ℚ)
  D1D2 : Option Arr
  D1R2 : Option Arr
  D2R1 : Option Arr
  R1R2 : Option Arr
  wp : Option Arr
  bins : Bins

def arr (b : BS) : Arr := (b.shape, b.data)

def getstate (o : Tpcf) : State :=
  ⟨arr o.corr, o.corr.dims, o.corr.edges, some (arr o.D1D2), o.D1R2.map arr, o.D2R1.map arr, o.R1R2.map arr, o.wp.join.map arr, o.bins⟩

/-- `WedgeBinnedStatistic(dims, edges, val)` of an attribute that is not `None`. -/
def wedge (dims : List String) (edges : List (List ℚ)) : Option Arr → Except Err (Option BS)
  | none => .ok none
  | some a => (make dims edges a.1 a.2 [] none).bind fun b => .ok (some b)

/-- The object that `load` returns; `D1D2` is never `None` in what `save` writes. -/
structure Loaded where
  bins : Bins
  D1D2 : Option BS
  D1R2 : Option BS
  D2R1 : Option BS
  R1R2 : Option BS
  corr : BS
  wp : Option BS

/-- `__setstate__` (tpcf.py 148-162). -/
def setstate (s : State) : Except Err Loaded :=
  (make s.dims s.edges s.corr.1 s.corr.2 [] none).bind fun corr =>
  (wedge (s.dims.take 1) (s.edges.take 1) s.wp).bind fun wp =>
  (wedge s.dims s.edges s.D1D2).bind fun d1d2 =>
  (wedge s.dims s.edges s.D1R2).bind fun d1r2 =>
  (wedge s.dims s.edges s.D2R1).bind fun d2r1 =>
  (wedge s.dims s.edges s.R1R2).bind fun r1r2 => .ok ⟨s.bins, d1d2, d1r2, d2r1, r1r2, corr, wp⟩

/-- `save` followed by `load` (tpcf.py 164-195). -/
def saveLoad (o : Tpcf) : Except Err Loaded := setstate (getstate o)

end NBK.PcfObj
