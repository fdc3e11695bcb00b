import Verif.Mock.Model
import Verif.Seeds.Model
import Verif.Plain.Model

/-!
# Model of `LogNormalCatalog` (nbodykit/source/catalog/lognormal.py)

The random fields and the sampling are those of `Mock/Model.lean`; here is what the object does with its arguments, its meta-data and the sampled
points. Numbers are exact; `f4` and `f8` are not told apart, except in `modRounded`. Cosmologies and power spectra are numbers that stand for
the objects. The seeds are the same on all ranks (`Seeds/Model.lean`, C79), and the meta-data are those of rank 0.
-/
namespace NBK.LogObj
open NBK.Mock (Vec Cell)
open NBK.Plain (Tok Dict put get update)

inductive Err where
  | valueError
  | other
  | rng (e : Rng.Err)
  deriving DecidableEq, Repr

/-- A value in `attrs`. -/
inductive Val where
  | num (q : ℚ)
  | flag (b : Bool)
  | seed (n : Option Nat)
  | cosmo (id : Nat)
  | vec (v : Vec)
  | mesh (c : Cell)
  | other (n : Nat)
  deriving DecidableEq, Repr

/-- `Plin`: a function that may have attributes `cosmo`, `redshift` and `attrs`. -/
structure Plin where
  id : Nat
  cosmo : Option Nat
  redshift : Option ℚ
  attrs : Option (Dict Val)
  deriving DecidableEq, Repr

/-- `BoxSize` or `Nmesh` as given. -/
inductive Size where
  | num (q : ℚ)
  | vec (l : List ℚ)
  deriving DecidableEq, Repr

/-- The arguments (lognormal.py 55-57). -/
structure Args where
  plin : Plin
  nbar : ℚ
  boxSize : Size
  nmesh : Size
  bias : ℚ := 2
  seed : Option Nat := none
  cosmoSeed : Option Nat := none
  cosmo : Option Nat := none
  redshift : Option ℚ := none
  unitary : Bool := false
  inverted : Bool := false
  deriving DecidableEq, Repr

/-- What is outside: the background functions of a cosmology, the fields of `gaussian_real_fields` for a power spectrum, a seed, the two flags
and a mesh, the generators of `poisson_sample_to_points` for its seed, the sorts, and how pmesh lays out the cells on the ranks. -/
structure Env (σ : Type) where
  ranks : Nat
  growth : Nat → ℚ → ℚ
  efunc : Nat → ℚ → ℚ
  delta : Nat → Option Nat → Bool → Bool → Vec → Cell → Cell → ℚ
  disp : Nat → Option Nat → Bool → Bool → Vec → Cell → Cell → Vec
  exp : ℚ → ℚ
  chunk : Nat
  seeds1 : Option Nat → Nat → σ
  seeds2 : Option Nat → Nat → σ
  poisson : σ → List ℚ → List Nat
  uniform : σ → List Unit → List Vec
  argsort1 : List Int → List Nat
  argsort2 : List Int → List Nat
  rav : Cell → List (List Cell)
  own : Cell → List (List Cell)

/-- Three numbers from one number, one in a list, or three: `_Nmesh[:] = Nmesh` (lognormal.py 143-144) and what pmesh does with `BoxSize`. -/
def three : Size → Except Err Vec
  | .num q => .ok ⟨q, q, q⟩
  | .vec [q] => .ok ⟨q, q, q⟩
  | .vec [x, y, z] => .ok ⟨x, y, z⟩
  | .vec _ => .error .valueError

/-- The conversion to `i8`, which truncates; a mesh without cells is refused by pmesh. -/
def meshOf (v : Vec) : Except Err Cell :=
  if 1 ≤ v.x ∧ 1 ≤ v.y ∧ 1 ≤ v.z then .ok ⟨⌊v.x⌋.toNat, ⌊v.y⌋.toNat, ⌊v.z⌋.toNat⟩ else .error .other

/-- The names in `attrs`. -/
def sCosmo : Tok := ['c', 'o', 's', 'm', 'o']
def sNbar : Tok := ['n', 'b', 'a', 'r']
def sRedshift : Tok := ['r', 'e', 'd', 's', 'h', 'i', 'f', 't']
def sBias : Tok := ['b', 'i', 'a', 's']
def sUnitary : Tok := ['u', 'n', 'i', 't', 'a', 'r', 'y', '_', 'a', 'm', 'p', 'l', 'i', 't', 'u', 'd', 'e']
def sInverted : Tok := ['i', 'n', 'v', 'e', 'r', 't', 'e', 'd', '_', 'p', 'h', 'a', 's', 'e']
def sCosmoSeed : Tok := ['c', 'o', 's', 'm', 'o', '_', 's', 'e', 'e', 'd']
def sSeed : Tok := ['s', 'e', 'e', 'd']
def sNmesh : Tok := ['N', 'm', 'e', 's', 'h']
def sBoxSize : Tok := ['B', 'o', 'x', 'S', 'i', 'z', 'e']

/-- The meta-data (lognormal.py 75-105). -/
def attrsOf (g : Args) (cosmo : Nat) (z : ℚ) (seed cosmoSeed : Option Nat) (n : Cell) (b : Vec) : Dict Val :=
  let d : Dict Val := match g.plin.attrs with
    | some a => update [] a
    | none => [(sCosmo, .cosmo cosmo)]
  let d := put sNbar (.num g.nbar) d
  let d := put sRedshift (.num z) d
  let d := put sBias (.num g.bias) d
  let d := put sUnitary (.flag g.unitary) d
  let d := put sInverted (.flag g.inverted) d
  let d := put sCosmoSeed (.seed cosmoSeed) d
  let d := put sSeed (.seed seed) d
  let d := put sNmesh (.mesh n) d
  put sBoxSize (.vec b) d

/-- A row of the catalog. -/
structure Row where
  pos : Vec
  vel : Vec
  off : Vec
  deriving DecidableEq, Repr

def add (a b : Vec) : Vec := ⟨a.x + b.x, a.y + b.y, a.z + b.z⟩
def scale (c : ℚ) (a : Vec) : Vec := ⟨c * a.x, c * a.y, c * a.z⟩
/-- `v % BoxSize`. -/
def wrapVec (v b : Vec) : Vec := ⟨Mock.wrap v.x b.x, Mock.wrap v.y b.y, Mock.wrap v.z b.z⟩

/-- The environment of the sampling (lognormal.py 145, 153-166). -/
def mockEnv {σ : Type} (e : Env σ) (g : Args) (seed cosmoSeed : Option Nat) (n : Cell) (b : Vec) : Mock.Env σ where
  nmesh := n
  H := ⟨b.x / n.i, b.y / n.j, b.z / n.k⟩
  nbar := g.nbar
  bias := g.bias
  exp := e.exp
  delta := e.delta g.plin.id cosmoSeed g.unitary g.inverted b n
  disp := e.disp g.plin.id cosmoSeed g.unitary g.inverted b n
  chunk := e.chunk
  seeds1 := e.seeds1 seed
  seeds2 := e.seeds2 seed
  poisson := e.poisson
  uniform := e.uniform
  argsort1 := e.argsort1
  argsort2 := e.argsort2

/-- One point moved, with its velocity (lognormal.py 171-189). -/
def rowOf (f E z : ℚ) (b : Vec) (p d : Vec) : Row :=
  let norm := f * 100 * E / (1 + z)
  ⟨wrapVec (add p d) b, scale norm d, scale f d⟩

/-- `_makesource` (lognormal.py 137-191). -/
def makeSource {σ : Type} (e : Env σ) (g : Args) (cosmo : Nat) (z : ℚ) (seed cosmoSeed : Option Nat) :
    Except Err (List (List Row) × Cell × Vec) := do
  let n ← (three g.nmesh).bind meshOf
  let b ← three g.boxSize
  let f := e.growth cosmo z
  let m := mockEnv e g seed cosmoSeed n b
  match Mock.sample m (e.rav n) (e.own n) with
  | .error er => .error (.rng er)
  | .ok (pos, disp) =>
    .ok (List.zipWith (fun p d => List.zipWith (rowOf f (e.efunc cosmo z) z b) p d) pos disp, n, b)

/-- The object. -/
structure Obj where
  cosmo : Nat
  attrs : Dict Val
  rows : List (List Row)
  nmesh : Cell
  boxSize : Vec
  deriving DecidableEq, Repr

/-- `LogNormalCatalog.__init__` (lognormal.py 54-114); `draw` is the seed drawn on the root if none is given. -/
def new {σ : Type} (e : Env σ) (g : Args) (draw : Nat) : Except Err Obj :=
  match g.cosmo.or g.plin.cosmo with
  | none => .error .valueError
  | some cosmo =>
    match g.redshift.or g.plin.redshift with
    | none => .error .valueError
    | some z => do
      let seeds := Seeds.resolve2 e.ranks g.seed g.cosmoSeed draw
      let seed := seeds.1.getD 0 none
      let cosmoSeed := seeds.2.getD 0 none
      let s ← makeSource e g cosmo z seed cosmoSeed
      if (s.1.map List.length).sum = 0 then .error .valueError
      else .ok ⟨cosmo, attrsOf g cosmo z seed cosmoSeed s.2.1 s.2.2, s.1, s.2.1, s.2.2⟩

/-- `x % L` of numbers that are rounded (numpy `remainder`): `fmod` is exact, and adding `L` to a negative result is rounded. -/
def modRounded (rnd : ℚ → ℚ) (x L : ℚ) : ℚ :=
  let q : Int := if 0 ≤ x / L then ⌊x / L⌋ else ⌈x / L⌉
  let m := x - L * q
  if m < 0 then rnd (m + L) else m

end NBK.LogObj
