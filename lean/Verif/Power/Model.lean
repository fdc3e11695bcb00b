import Mathlib.Algebra.Order.Field.Basic

/-!
# Model of the power spectrum objects (nbodykit/cosmology/power/linear.py, transfers.py, halofit.py, zeldovich.py)

Numbers are those of an ordered field `K`. The results of CLASS, the fitting formulas of Eisenstein & Hu at redshift 0, the growth
factor, roots, powers and the integrals are parameters. The objects are records with the attributes that the code keeps.
-/
namespace NBK.Power

variable {K : Type} [Field K] [LinearOrder K]

inductive Err where
  | valueError
  /-- `float division by zero` -/
  | zeroDivision
  deriving DecidableEq, Repr

/-- The name of the transfer function. -/
inductive Kind where
  | CLASS | EisensteinHu | NoWiggleEisensteinHu
  deriving DecidableEq, Repr

/-- What comes from elsewhere. -/
structure Env (K : Type) where
  /-- `k ** n_s` -/
  tilt : K → K
  /-- `(k * h) ** n_s` -/
  tiltH : K → K
  h : K
  sqrt : K → K
  /-- `get_pklin` of redshift and wavenumber -/
  pklin : K → K → K
  /-- `get_pk` -/
  pk : K → K → K
  /-- `scale_independent_growth_factor` -/
  growth : K → K
  /-- the fitting formulas for `k > 0` -/
  eh : K → K
  noWiggle : K → K
  /-- `KMIN` (transfers.py 6) -/
  KMIN : K
  /-- `P_k_max` and `P_k_min` of the cosmology -/
  kmax : K
  kmin : K
  /-- the factors 0.99999 and 1.00001 -/
  below : K
  above : K
  /-- `sigma8` of the cosmology -/
  sigma8 : K
  /-- `sigma_r(8)` of a power spectrum (linear.py 184-218) -/
  sigmaR : (K → K) → K
  /-- the conversion to an integer in an array of integers -/
  trunc : K → K

/-- The value of `CLASS.__call__` (transfers.py 33-71) with the given `_norm` and redshift. -/
def classCall (e : Env K) (norm z k : K) : K :=
  if k > 0 then
    let linearP := e.pklin z k / e.h ^ 3
    let primordialP := e.tiltH k
    norm * e.sqrt (linearP / primordialP)
  else e.growth z

/-- `_norm` after `CLASS.__init__` (transfers.py 19-31). -/
def classNorm (e : Env K) : K := 1 / classCall e 1 0 e.KMIN

/-- `EisensteinHu.__call__` and `NoWiggleEisensteinHu.__call__` (transfers.py 133-183, 218-255) with the formula `f`; `scalar` says
that the argument is a number rather than an array. -/
def ehCall (e : Env K) (f : K → K) (scalar : Bool) (z k : K) : K :=
  if scalar ∧ k = 0 then 1
  else (if k > 0 then f k else 1) * e.growth z

/-- A `LinearPower` object: the attributes, and the redshifts that the two transfer objects hold. -/
structure Lin (K : Type) where
  kind : Kind
  norm : K
  sigma8 : K
  z : K
  transferZ : K
  fallbackZ : K

/-- `self._transfer(k)` (linear.py 54, 136, 150). -/
def transferCall (e : Env K) (o : Lin K) (scalar : Bool) (k : K) : K :=
  match o.kind with
  | .CLASS => classCall e (classNorm e) o.transferZ k
  | .EisensteinHu => ehCall e e.eh scalar o.transferZ k
  | .NoWiggleEisensteinHu => ehCall e e.noWiggle scalar o.transferZ k

/-- `self._fallback(k)` (linear.py 55, 152-154). -/
def fallbackCall (e : Env K) (o : Lin K) (scalar : Bool) (k : K) : K := ehCall e e.eh scalar o.fallbackZ k

/-- An item of the result of `LinearPower.__call__` (linear.py 114-156). `ints` says that `k` is an integer or an array of integers, so that
`zeros_like(k)` is an array of integers too. -/
def call (e : Env K) (o : Lin K) (scalar ints : Bool) (k : K) : K :=
  match o.kind with
  | .CLASS =>
    let Pk :=
      if k < e.below * e.kmax then e.tilt k * transferCall e o false k ^ 2
      else
        let analytic := fallbackCall e o false k
        let analytic := analytic * (transferCall e o false e.kmax / fallbackCall e o true e.kmax)
        e.tilt k * analytic ^ 2
    o.norm * (if ints then e.trunc Pk else Pk)
  | _ => o.norm * (e.tilt k * transferCall e o scalar k ^ 2)

/-- The power on an array of floats, as `sigma_r` needs it. -/
def fn (e : Env K) (o : Lin K) : K → K := call e o false false

/-- The setter of `redshift` (linear.py 86-90). -/
def setRedshift (o : Lin K) (z : K) : Lin K := { o with z := z, transferZ := z, fallbackZ := z }

/-- The setter of `sigma8` (linear.py 103-112). -/
def setSigma8 (o : Lin K) (v : K) : Except Err (Lin K) :=
  if o.sigma8 = 0 then .error .zeroDivision
  else .ok { o with norm := o.norm * (v / o.sigma8) ^ 2, sigma8 := v }

/-- `LinearPower.__init__` (linear.py 33-66) with a valid name. -/
def init (e : Env K) (kind : Kind) (z : K) : Lin K :=
  let o : Lin K := { kind := kind, norm := 1, sigma8 := e.sigma8, z := z, transferZ := z, fallbackZ := z }
  let o := setRedshift o 0
  let o := { o with norm := (o.sigma8 / e.sigmaR (fn e o)) ^ 2 }
  setRedshift o z

/-- What a user does to the object. -/
inductive Op (K : Type) where
  | redshift (z : K)
  | sigma8 (v : K)

/-- One assignment to a `LinearPower`. -/
def step (o : Lin K) : Op K → Except Err (Lin K)
  | .redshift z => .ok (setRedshift o z)
  | .sigma8 v => setSigma8 o v

/-- A history of assignments. -/
def run (o : Lin K) : List (Op K) → Except Err (Lin K)
  | [] => .ok o
  | x :: l => do
    let o ← step o x
    run o l

/-- A `ZeldovichPower` object: the linear power, the attributes and what `_setup` keeps, which is a function `S` of the linear power
(zeldovich.py 54-105). -/
structure Zel (K S : Type) where
  plin : Lin K
  z : K
  sigma8 : K
  cache : S

/-- `_setup` (zeldovich.py 80-105) and the sums of `__call__`: integrals of the linear power, and the power from these integrals and the
linear power (zeldovich.py 133-187). -/
structure ZelEnv (K S : Type) where
  setup : (K → K) → S
  power : S → (K → K) → K → K

section
variable {S : Type}

/-- The setter of `redshift` (zeldovich.py 114-118). -/
def Zel.setRedshift (e : Env K) (c : ZelEnv K S) (o : Zel K S) (z : K) : Zel K S :=
  let p := Power.setRedshift o.plin z
  { o with z := z, plin := p, cache := c.setup (fn e p) }

/-- The setter of `sigma8` (zeldovich.py 127-131): the attribute is set before the linear power is asked. -/
def Zel.setSigma8 (e : Env K) (c : ZelEnv K S) (o : Zel K S) (v : K) : Except Err (Zel K S) := do
  let p ← Power.setSigma8 o.plin v
  pure { o with sigma8 := v, plin := p, cache := c.setup (fn e p) }

/-- `ZeldovichPower.__init__` (zeldovich.py 54-69). -/
def Zel.init (e : Env K) (c : ZelEnv K S) (kind : Kind) (z : K) : Zel K S :=
  let p := Power.init e kind z
  Zel.setRedshift e c { plin := p, z := z, sigma8 := e.sigma8, cache := c.setup (fn e p) } z

/-- `ZeldovichPower.__call__` (zeldovich.py 152-187). -/
def Zel.call (e : Env K) (c : ZelEnv K S) (o : Zel K S) (k : K) : K := c.power o.cache (fn e o.plin) k

/-- One assignment. -/
def Zel.step (e : Env K) (c : ZelEnv K S) (o : Zel K S) : Op K → Except Err (Zel K S)
  | .redshift z => .ok (o.setRedshift e c z)
  | .sigma8 v => o.setSigma8 e c v

/-- A history of assignments. -/
def Zel.run (e : Env K) (c : ZelEnv K S) (o : Zel K S) : List (Op K) → Except Err (Zel K S)
  | [] => .ok o
  | x :: l => do
    let o ← Zel.step e c o x
    Zel.run e c o l

end

/-- `HalofitPower.__call__` (halofit.py 63-95) on an array; `k.max()` of an empty array raises. -/
def halofit (e : Env K) (z : K) (ints : Bool) (ks : List K) : Except Err (List K) :=
  if ks = [] then .error .valueError
  else if ks.any fun k => k > e.kmax then .error .valueError
  else .ok (ks.map fun k =>
    let P := if k > e.above * e.kmin then e.pk z k else e.pklin z k
    if ints then e.trunc P else P)

end NBK.Power
