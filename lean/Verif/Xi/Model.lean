import Verif.Power.Model
import Mathlib.Analysis.SpecialFunctions.Exp
import Mathlib.Analysis.Real.Sqrt

/-!
# Model of `CorrelationFunction` and `FNLGalaxyPower` (nbodykit/cosmology/correlation.py 70-144, cosmology/power/galaxy.py)

Real numbers.  The linear power is that of `Verif.Power.Model`.  mcfit and the spline are a parameter `transform`.  A result of
numpy that is nan or infinite is `none`.
-/
noncomputable section
namespace NBK.Xi
open Power

inductive Err where
  | attributeError
  | zeroDivision
  deriving DecidableEq, Repr

/-- A `FNLGalaxyPower` (galaxy.py 51-75). -/
structure FNL where
  kind : Kind
  z : ℝ
  b : ℝ
  p : ℝ
  fnl : ℝ
  omegaM : ℝ
  H0 : ℝ
  c : ℝ

/-- `Plin(k)` for an array of floats (galaxy.py 94-95, 122-123): a new object for each call. -/
def FNL.linear (e : Env ℝ) (o : FNL) (k : ℝ) : ℝ := fn e (init e o.kind o.z) k

/-- `FNLGalaxyPower.total_bias` (galaxy.py 78-102). -/
def FNL.totalBias (e : Env ℝ) (o : FNL) (k : ℝ) : Option ℝ :=
  let Pk := o.linear e k
  let Dz := 1 / (1 + o.z)
  let den := k ^ 2 * Real.sqrt Pk * Dz
  if den = 0 then none else some (o.b + 3 * o.fnl * (o.b - o.p) * 1.686 * o.omegaM / den * (o.H0 / o.c) ^ 2)

/-- `FNLGalaxyPower.__call__` (galaxy.py 104-128). -/
def FNL.call (e : Env ℝ) (o : FNL) (k : ℝ) : Option ℝ := (o.totalBias e k).map fun t => o.linear e k * t ^ 2

/-- The power objects.  A `HalofitPower` keeps a cosmology that is matched to each new `sigma8` (halofit.py 57-61); a cosmology is
known by its `sigma8` here. -/
inductive Pow where
  | lin (o : Lin ℝ)
  | halofit (z sigma8 cosmo attrsCosmo : ℝ)
  | fnl (o : FNL)

/-- `hasattr(power, attr)` (correlation.py 87-89). -/
def Pow.has : Pow → String → Bool
  | .lin _, a => a ∈ ["redshift", "sigma8", "cosmo", "attrs", "transfer"]
  | .halofit .., a => a ∈ ["redshift", "sigma8", "cosmo", "attrs"]
  | .fnl _, a => a ∈ ["redshift", "cosmo", "transfer", "b", "p", "fnl", "omega_m", "H0", "c"]

/-- The setters of `redshift`. -/
def Pow.setRedshift (z : ℝ) : Pow → Pow
  | .lin o => .lin (Power.setRedshift o z)
  | .halofit _ s c a => .halofit z s c a
  | .fnl o => .fnl { o with z := z }

/-- The setters of `sigma8`; an object without one just gets the attribute, which nothing reads. -/
def Pow.setSigma8 (v : ℝ) : Pow → Except Err Pow
  | .lin o => match Power.setSigma8 o v with
    | .ok o => .ok (.lin o)
    | .error _ => .error .zeroDivision
  | .halofit z _ _ _ => .ok (.halofit z v v v)
  | .fnl o => .ok (.fnl o)

/-- The value of `power(k)`; `halo` gives the power of CLASS for a cosmology, a redshift and a wavenumber. -/
def Pow.value (e : Env ℝ) (halo : ℝ → ℝ → ℝ → ℝ) : Pow → ℝ → Option ℝ
  | .lin o, k => some (fn e o k)
  | .halofit z _ c _, k => some (halo c z k)
  | .fnl o, k => o.call e k

/-- The attributes `redshift`, `sigma8` and `cosmo` of the objects that have them; for a `LinearPower` the cosmology `cosmo0` never
changes. -/
def Pow.redshift : Pow → ℝ
  | .lin o => o.z
  | .halofit z .. => z
  | .fnl o => o.z
def Pow.sigma8 : Pow → ℝ
  | .lin o => o.sigma8
  | .halofit _ s .. => s
  | .fnl _ => 0
def Pow.cosmo (cosmo0 : ℝ) : Pow → ℝ
  | .lin _ => cosmo0
  | .halofit _ _ c _ => c
  | .fnl _ => cosmo0

/-- `power.attrs['cosmo']` (linear.py 66, halofit.py 36, 61). -/
def Pow.attrsCosmo (cosmo0 : ℝ) : Pow → ℝ
  | .lin _ => cosmo0
  | .halofit _ _ _ a => a
  | .fnl _ => cosmo0

/-- A `CorrelationFunction`: the place of its power object in memory and the cosmology in its `_attrs`. -/
structure CF where
  power : Nat
  attrsCosmo : ℝ

/-- The memory. -/
structure World where
  powers : List Pow
  cfs : List CF

/-- `CorrelationFunction.__init__` (correlation.py 82-94). -/
def new (cosmo0 : ℝ) (w : World) (i : Nat) (p : Pow) : Except Err World :=
  if ["redshift", "sigma8", "cosmo"].all p.has then .ok { w with cfs := w.cfs ++ [⟨i, p.attrsCosmo cosmo0⟩] }
  else .error .attributeError

/-- What a user does: assign to a `CorrelationFunction` or to a power object, by their places. -/
inductive Act where
  | cf (j : Nat) (op : Op ℝ)
  | pow (i : Nat) (op : Op ℝ)

/-- An assignment to the power at a place. -/
def assign (w : World) (i : Nat) (op : Op ℝ) : Except Err World :=
  match w.powers[i]? with
  | none => .error .attributeError
  | some p => match op with
    | .redshift z => .ok { w with powers := w.powers.set i (p.setRedshift z) }
    | .sigma8 v => match p.setSigma8 v with
      | .ok p => .ok { w with powers := w.powers.set i p }
      | .error x => .error x

/-- The setters of `CorrelationFunction` hand the value on to the power (correlation.py 102-116). -/
def step (w : World) : Act → Except Err World
  | .pow i op => assign w i op
  | .cf j op => match w.cfs[j]? with
    | none => .error .attributeError
    | some c => assign w c.power op

/-- A history. -/
def run (w : World) : List Act → Except Err World
  | [] => .ok w
  | a :: l => match step w a with
    | .ok w => run w l
    | .error x => .error x

/-- `CorrelationFunction.attrs` (correlation.py 96-100): redshift, sigma8 and the cosmology. -/
def attrs (w : World) (j : Nat) : Option (ℝ × ℝ × ℝ) :=
  w.cfs[j]?.bind fun c => w.powers[c.power]?.map fun p => (p.redshift, p.sigma8, c.attrsCosmo)

/-- `CorrelationFunction.cosmo` (correlation.py 118-120). -/
def cosmo (cosmo0 : ℝ) (w : World) (j : Nat) : Option ℝ :=
  w.cfs[j]?.bind fun c => w.powers[c.power]?.map (·.cosmo cosmo0)

/-- The factor of the smoothing (correlation.py 140). -/
def damp (smoothing k : ℝ) : ℝ := Real.exp (-(k * smoothing) ^ 2)

/-- `CorrelationFunction.__call__` (correlation.py 122-144) for the wavenumbers `ks`; `transform` makes the function of `r` from
the wavenumbers and the powers (`pk_to_xi`, with the extrapolation that all but `ZeldovichPower` get). -/
def call (e : Env ℝ) (halo : ℝ → ℝ → ℝ → ℝ) (transform : List ℝ → List (Option ℝ) → ℝ → Option ℝ) (ks : List ℝ) (w : World) (j : Nat)
    (smoothing r : ℝ) : Option ℝ :=
  w.cfs[j]?.bind fun c => w.powers[c.power]?.bind fun p =>
    transform ks (ks.map fun k => (p.value e halo k).map fun P => P * damp smoothing k) r

end NBK.Xi
