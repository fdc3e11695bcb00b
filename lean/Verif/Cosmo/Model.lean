import Mathlib.Data.Rat.Defs
import Mathlib.Algebra.Order.Ring.Rat

/-!
# Model of the parameters of `Cosmology` (nbodykit/cosmology/cosmology.py)

A dictionary is the partial function of its keys (the order of keys has no effect in this code).  The object is its
dictionary `pars`; what CLASS computes from it (`ClassEngine`) is external.
-/
namespace NBK.Cosmo

/-- Python exceptions raised by the modelled code. -/
inductive Err where
  | valueError | typeError | keyError | indexError
  /-- a call with the old names, which goes through astropy (cosmology.py 148-162) and is not modelled -/
  | deprecated
  deriving DecidableEq, Repr

/-- Values of parameters. -/
inductive Val where
  | none | bool (b : Bool) | num (q : ℚ) | str (s : String) | list (l : List ℚ) | strs (l : List String)
  deriving DecidableEq, Repr

/-- A dictionary. -/
abbrev Dict := String → Option Val

namespace Dict

/-- `{}` -/
def empty : Dict := fun _ => .none

/-- `k in d` -/
def has (d : Dict) (k : String) : Bool := (d k).isSome

/-- `d[k] = v` -/
def set (d : Dict) (k : String) (v : Val) : Dict := fun x => if x = k then some v else d x

/-- `d.pop(k, None)` -/
def pop (d : Dict) (k : String) : Dict := fun x => if x = k then .none else d x

/-- `d.update(e)` -/
def update (d e : Dict) : Dict := fun x => if (e x).isSome then e x else d x

/-- A literal. -/
def lit (l : List (String × Val)) : Dict := fun x => l.lookup x

end Dict

/-- `CONFLICTS` (cosmology.py 725-737). -/
def conflicts : List (List String) := [
  ["h", "H0", "100*theta_s"],
  ["T_cmb", "Omega_g", "omega_g", "Omega0_g"],
  ["Omega_b", "omega_b", "Omega0_b"],
  ["Omega_fld", "Omega0_fld"],
  ["Omega_Lambda", "Omega0_Lambda"],
  ["N_ur", "Omega_ur", "omega_ur", "Omega0_ur"],
  ["Omega_cdm", "omega_cdm", "Omega0_cdm"],
  ["m_ncdm", "Omega_ncdm", "omega_ncdm", "Omega0_ncdm"],
  ["P_k_max", "P_k_max_h/Mpc", "P_k_max_1/Mpc"],
  ["P_z_max", "z_max_pk"],
  ["nonlinear", "non linear"],
  ["A_s", "ln10^{10}A_s"]]

/-- `find_eqcls` (cosmology.py 739-744). -/
def findEqcls (key : String) : List String := (conflicts.find? fun c => c.contains key).getD []

/-- The names for which `find_eqcls` is not empty. -/
def conflictNames : List String := conflicts.flatten

/-- `check_args` (cosmology.py 712-722): raise if a key and another one of its class are given. Keys outside the table
have an empty class. -/
def checkArgs (args : Dict) : Except Err Unit :=
  if conflictNames.any fun name => args.has name && (findEqcls name).any fun eq => eq ≠ name && args.has eq then
    .error .valueError
  else .ok ()

/-- `merge_args` (cosmology.py 645-662): the names in the classes of the new keys are removed first. -/
def mergeArgs (args more : Dict) : Dict :=
  Dict.update (fun x => if conflictNames.any fun name => more.has name && (findEqcls name).contains x then none
    else args x) more

/-- `set_alias` (cosmology.py 539-545). -/
def setAlias (args : Dict) (pars : Dict) (p a : String) : Dict :=
  match args a with
  | .none => pars
  | some v => (pars.pop a).set p ((args p).getD v)

/-- The first aliases (cosmology.py 547-557): CLASS name and other name. -/
def aliases : List (String × String) := [
  ("T_cmb", "T0_cmb"), ("Omega_cdm", "Omega0_cdm"), ("Omega_b", "Omega0_b"), ("Omega_k", "Omega0_k"),
  ("Omega_ur", "Omega0_ur"), ("Omega_Lambda", "Omega_lambda"), ("Omega_Lambda", "Omega0_lambda"),
  ("Omega_Lambda", "Omega0_Lambda"), ("Omega_fld", "Omega0_fld"), ("Omega_ncdm", "Omega0_ncdm"),
  ("Omega_g", "Omega0_g")]

/-- The aliases set at the end (cosmology.py 625-631). -/
def lateAliases : List (String × String) := [
  ("P_k_max_h/Mpc", "P_k_max"), ("z_max_pk", "P_z_max"), ("non linear", "nonlinear")]

/-- Several aliases in order. -/
def setAliases (args : Dict) (l : List (String × String)) (pars : Dict) : Dict :=
  l.foldl (fun pars pa => setAlias args pars pa.1 pa.2) pars

/-- `bool(v)` -/
def truthy : Val → Bool
  | .none => false
  | .bool b => b
  | .num q => q ≠ 0
  | .str s => s ≠ ""
  | .list l => !l.isEmpty
  | .strs l => !l.isEmpty

/-- The names of the verbosity flags (cosmology.py 564-566). -/
def verboseNames : List String := [
  "input_verbose", "background_verbose", "thermodynamics_verbose", "perturbations_verbose", "transfer_verbose",
  "primordial_verbose", "spectra_verbose", "nonlinear_verbose", "lensing_verbose"]

/-- `verbose` (cosmology.py 560-567). -/
def setVerbose (args pars : Dict) : Dict :=
  match args "verbose" with
  | .none => pars
  | some v =>
    let pars := pars.pop "verbose"
    if truthy v then fun x => if verboseNames.contains x && !pars.has x then some (.num 1) else pars x else pars

/-- The masses as a list (cosmology.py 572-582). A string is a scalar for numpy. -/
def massList : Val → Except Err Val
  | .none => .ok (.list [])
  | .num q => .ok (.list [q])
  | .str s => .ok (.strs [s])
  | .list l => .ok (.list l)
  | .strs l => .ok (.strs l)
  | .bool b => .ok (.list [if b then 1 else 0])

/-- The number of masses. -/
def massCount : Val → Nat
  | .list l => l.length
  | .strs l => l.length
  | _ => 0

/-- A mass is zero (a string is never equal to 0). -/
def massZero : Val → Bool
  | .list l => l.contains 0
  | _ => false

/-- `N_ur_table` (cosmology.py 603). -/
def nurTable : List ℚ := [3046/1000, 20328/10000, 10196/10000, 641/100000]

/-- `m_ncdm` (cosmology.py 570-605). -/
def setNcdm (args pars : Dict) : Except Err Dict :=
  match args "m_ncdm" with
  | .none => .ok pars
  | some v => do
    let pars := pars.pop "m_ncdm"
    let m ← massList v
    if massZero m then throw .valueError
    let pars := pars.set "N_ncdm" (.num (massCount m))
    let pars := if massCount m > 0 then pars.set "m_ncdm" m else pars
    match args "N_ur" with
    | .none => throw .keyError
    | some .none =>
      match nurTable[massCount m]? with
      | .none => throw .indexError
      | some n => pure (pars.set "N_ur" (.num n))
    | some _ => pure pars

/-- `N_ur` (cosmology.py 607-609). -/
def setNur (args pars : Dict) : Dict :=
  match args "N_ur" with
  | .none => pars
  | some .none => pars
  | some v => pars.set "N_ur" v

/-- `gauge` (cosmology.py 612-614). -/
def checkGauge (args : Dict) : Except Err Unit :=
  match args "gauge" with
  | .none => .ok ()
  | some v => if v = .str "synchronous" ∨ v = .str "newtonian" then .ok () else .error .valueError

/-- `pars.get('Omega_Lambda', 0) > 0` (cosmology.py 618): None and strings do not compare with numbers. -/
def positive : Option Val → Except Err Bool
  | .none => .ok false
  | some (.num q) => .ok (q > 0)
  | some (.bool b) => .ok b
  | some _ => .error .typeError

/-- The cosmological constant of a fluid (cosmology.py 617-621). -/
def setFluid (args pars : Dict) : Except Err Dict :=
  if args.has "w0_fld" || args.has "wa_fld" then do
    if ← positive (pars "Omega_Lambda") then throw .valueError
    pure (pars.set "Omega_Lambda" (.num 0))
  else pure pars

/-- `non linear` (cosmology.py 632-635). -/
def setNonlinear (pars : Dict) : Dict :=
  if ((pars "non linear").map truthy).getD false then (pars.pop "non linear").set "non linear" (.str "halofit")
  else pars.pop "non linear"

/-- Remove the None's (cosmology.py 639-640). -/
def dropNone (pars : Dict) : Dict := fun x => if pars x = some .none then none else pars x

/-- `pars` before the aliases (cosmology.py 530-537). -/
def startPars : Dict := Dict.lit [("output", .str "vTk dTk mPk"), ("extra metric transfer functions", .str "y")]

/-- `compile_args` (cosmology.py 514-642). -/
def compileArgs (args : Dict) : Except Err Dict := do
  let pars := startPars.update args
  let pars := setAliases args aliases pars
  let pars := setVerbose args pars
  let pars ← setNcdm args pars
  let pars := setNur args pars
  checkGauge args
  let pars ← setFluid args pars
  let pars := setAliases args lateAliases pars
  let pars := setNonlinear pars
  pure (dropNone pars)

/-- The default values of the constructor (cosmology.py 119-132). -/
def defaults : Dict := Dict.lit [
  ("h", .num (67556/100000)), ("T0_cmb", .num (27255/10000)),
  ("Omega0_b", .num (22032/1000000 / (67556/100000)^2)), ("Omega0_cdm", .num (12038/100000 / (67556/100000)^2)),
  ("N_ur", .none), ("m_ncdm", .list [6/100]), ("P_k_max", .num 10), ("P_z_max", .num 100),
  ("gauge", .str "synchronous"), ("n_s", .num (9667/10000)), ("nonlinear", .bool false), ("verbose", .bool false)]

/-- The old names (cosmology.py 673-674). -/
def oldNames : List String := ["H0", "Om0", "Ob0", "Ode0", "w0", "Tcmb0", "Neff", "m_nu", "flat"]

/-- `Cosmology(**kw)` (cosmology.py 118-170): the parameters. -/
def init (kw : Dict) : Except Err Dict := do
  if oldNames.any kw.has then throw .deprecated
  let args := defaults.update kw
  checkArgs kw
  compileArgs args

/-- `clone(**kw)` (cosmology.py 429-450). -/
def clone (pars kw : Dict) : Except Err Dict := do
  let args := mergeArgs pars kw
  checkArgs args
  compileArgs args

/-- What CLASS derives from the parameters, as far as `match` uses it. -/
structure Engine where
  A_s : Dict → ℚ
  sigma8 : Dict → ℚ
  Omega0_b : Dict → ℚ
  Omega0_cdm : Dict → ℚ
  /-- `Omega0_ncdm_tot - Omega0_pncdm_tot` -/
  ncdm : Dict → ℚ
  Omega0_dcdm : Dict → ℚ

/-- `match(Omega0_cb=x)` (cosmology.py 282-284). -/
def matchCb (e : Engine) (pars : Dict) (x : ℚ) : Except Err Dict :=
  let rat := x / (e.Omega0_cdm pars + e.Omega0_b pars)
  clone pars (Dict.lit [("Omega_b", .num (rat * e.Omega0_b pars)), ("Omega_cdm", .num (rat * e.Omega0_cdm pars))])

/-- `match` (cosmology.py 253-290). -/
def matchOne (e : Engine) (pars : Dict) (sigma8 cb m : Option ℚ) : Except Err Dict :=
  match sigma8, cb, m with
  | some s, .none, .none => clone pars (Dict.lit [("A_s", .num (e.A_s pars * (s / e.sigma8 pars) ^ 2))])
  | .none, some x, .none => matchCb e pars x
  | .none, .none, some x => matchCb e pars (x - e.ncdm pars - e.Omega0_dcdm pars)
  | _, _, _ => .error .valueError

/-! ### Conversion to and from astropy -/

/-- The values of a cosmology that the conversion uses. -/
structure Derived where
  h : ℚ
  Omega0_b : ℚ
  Omega0_cdm : ℚ
  Tcmb0 : ℚ
  Neff : ℚ
  m_ncdm : List ℚ
  Ok0 : ℚ
  Ode0 : ℚ
  w0 : ℚ
  wa : ℚ
  deriving DecidableEq

/-- The dark energy of an astropy class: LambdaCDM, wCDM or w0waCDM. -/
inductive DE where
  | lambda | w (w0 : ℚ) | w0wa (w0 wa : ℚ)
  deriving DecidableEq

/-- An astropy cosmology; `ode0` is none for the flat classes. -/
structure Astropy where
  H0 : ℚ
  Om0 : ℚ
  Ob0 : ℚ
  Tcmb0 : ℚ
  Neff : ℚ
  m_nu : Option (List ℚ)
  ode0 : Option ℚ
  de : DE
  deriving DecidableEq

/-- The neutrino masses of `to_astropy` (cosmology.py 316-323) for `n = floor(Neff)` species: the array of zeros cannot
hold more masses. -/
def nuMasses (n : Nat) (m : List ℚ) : Except Err (Option (List ℚ)) :=
  if m = [] then .ok none
  else if m.length ≤ n then .ok (some (m ++ List.replicate (n - m.length) 0))
  else .error .valueError

/-- The dark energy of `to_astropy` (cosmology.py 329-345). -/
def toDE (w0 wa : ℚ) : DE :=
  let parW0 : Option ℚ := if wa ≠ 0 then some wa else none
  let parW0 := if w0 ≠ -1 then some w0 else parW0
  if wa ≠ 0 then .w0wa (parW0.getD (-1)) wa
  else if w0 ≠ -1 then .w (parW0.getD (-1))
  else .lambda

/-- `to_astropy` (cosmology.py 292-348); `n` is `floor(Neff)`. -/
def toAstropy (n : Nat) (d : Derived) : Except Err Astropy := do
  let nu ← nuMasses n d.m_ncdm
  pure { H0 := 100 * d.h, Om0 := d.Omega0_b + d.Omega0_cdm, Ob0 := d.Omega0_b, Tcmb0 := d.Tcmb0, Neff := d.Neff
         m_nu := nu, ode0 := if d.Ok0 ≠ 0 then some d.Ode0 else none, de := toDE d.w0 d.wa }

/-- The dark energy part of `astropy_to_dict` (cosmology.py 493-510): `w0_fld` and `wa_fld`; none for LambdaCDM. -/
def fromDE : DE → Option (ℚ × ℚ)
  | .lambda => none
  | .w w0 => some (w0, 0)
  | .w0wa w0 wa => some (w0, wa)

/-- The masses of `astropy_to_dict` (cosmology.py 464-486): the positive ones, in decreasing order. -/
def fromMasses : Option (List ℚ) → List ℚ
  | .none => []
  | some l => (l.filter fun m => m > 0).mergeSort fun a b => decide (b ≤ a)

/-- The table of `astropy_to_dict` (cosmology.py 480). -/
def nurMassive : List ℚ := [20328/10000, 10196/10000, 641/100000]

/-- `astropy_to_dict` (cosmology.py 452-512); `ok0` is the curvature that astropy derives. -/
def fromAstropy (a : Astropy) (ok0 : ℚ) : Except Err Dict := do
  if a.Ob0 ≤ 0 then throw .valueError
  let m := fromMasses a.m_nu
  let nur ← if m.length = 0 then pure a.Neff else
    match nurMassive[m.length - 1]? with
    | some n => pure (a.Neff / (3046/1000) * n)
    | .none => throw .indexError
  pure (Dict.lit ([("h", .num (a.H0 / 100)), ("T0_cmb", .num a.Tcmb0), ("Omega0_b", .num a.Ob0),
    ("Omega0_cdm", .num (a.Om0 - a.Ob0)), ("N_ur", .num nur), ("m_ncdm", .list m), ("Omega0_k", .num ok0)] ++
    ((fromDE a.de).map fun (w : ℚ × ℚ) =>
      [("w0_fld", Val.num w.1), ("wa_fld", .num w.2), ("Omega0_Lambda", .num 0)]).getD []))

end NBK.Cosmo
