import Mathlib.Analysis.SpecialFunctions.Complex.Arg
import Mathlib.Analysis.SpecialFunctions.Trigonometric.Basic
import Mathlib.Algebra.Order.Floor.Ring

/-!
# Model of the sky coordinates (nbodykit/transform.py 110-374)

Real numbers in place of floats; `arctan2` is the argument of a complex number, without signed zeros.  One object at a time:
the functions act on the rows independently.  `frame` is `icrs`; the other frames are those of astropy.
The comoving distance is any function of redshift.
-/
noncomputable section
namespace NBK.Sky

/-- Python exceptions raised by the modelled code. -/
inductive Err where
  | valueError
  deriving DecidableEq, Repr

/-- A position or a velocity. -/
@[ext] structure Vec where
  x : ℝ
  y : ℝ
  z : ℝ

instance : Add Vec := ⟨fun a b => ⟨a.x + b.x, a.y + b.y, a.z + b.z⟩⟩
instance : Sub Vec := ⟨fun a b => ⟨a.x - b.x, a.y - b.y, a.z - b.z⟩⟩
instance : SMul ℝ Vec := ⟨fun c a => ⟨c * a.x, c * a.y, c * a.z⟩⟩

/-- `(a * b).sum(axis=-1)` -/
def Vec.dot (a b : Vec) : ℝ := a.x * b.x + a.y * b.y + a.z * b.z

/-- `da.linalg.norm(a, axis=-1)` -/
def Vec.norm (a : Vec) : ℝ := Real.sqrt (a.x ^ 2 + a.y ^ 2 + a.z ^ 2)

/-- `arctan2(y, x)` (transform.py 147-148) -/
def arctan2 (y x : ℝ) : ℝ := Complex.arg ⟨x, y⟩

/-- `hypot(x, y)` (transform.py 146) -/
def hypot (x y : ℝ) : ℝ := Real.sqrt (x ^ 2 + y ^ 2)

/-- `da.rad2deg` (transform.py 151-152). -/
def rad2deg (a : ℝ) : ℝ := a * (180 / Real.pi)
/-- `da.deg2rad` (transform.py 301-302). -/
def deg2rad (a : ℝ) : ℝ := a * (Real.pi / 180)

/-- `mod(a, b)` of numpy, with the sign of `b` (transform.py 154). -/
def mod (a b : ℝ) : ℝ := a - b * ⌊a / b⌋

/-- Right ascension and declination. -/
@[ext] structure Eq where
  ra : ℝ
  dec : ℝ

/-- `CartesianToEquatorial` (transform.py 110-177). -/
def cartesianToEquatorial (pos observer : Vec) : Eq :=
  let x := pos.x - observer.x
  let y := pos.y - observer.y
  let z := pos.z - observer.z
  let s := hypot x y
  let lon := rad2deg (arctan2 y x)
  let lat := rad2deg (arctan2 z s)
  ⟨mod (lon - 360) 360, lat⟩

/-- `SkyToUnitSphere` (transform.py 266-329). -/
def skyToUnitSphere (ra dec : ℝ) (degrees : Bool) : Vec :=
  let ra := if degrees then deg2rad ra else ra
  let dec := if degrees then deg2rad dec else dec
  ⟨Real.cos dec * Real.cos ra, Real.cos dec * Real.sin ra, Real.sin dec⟩

/-- `SkyToCartesian` (transform.py 331-374); `dist` is `cosmo.comoving_distance`. -/
def skyToCartesian (dist : ℝ → ℝ) (ra dec z : ℝ) (observer : Vec) (degrees : Bool) : Vec :=
  dist z • skyToUnitSphere ra dec degrees + observer

/-- `interp1d(xs, ys)(x)` for increasing `xs`: ValueError outside, otherwise linear between the two points around `x`. -/
def interp1d : List (ℝ × ℝ) → ℝ → Except Err ℝ
  | p :: q :: l, x =>
    if x < p.1 then .error .valueError
    else if x ≤ q.1 then .ok (p.2 + (q.2 - p.2) / (q.1 - p.1) * (x - p.1))
    else interp1d (q :: l) x
  | _, _ => .error .valueError

/-- `z_from_comoving_distance` (transform.py 248-252): `zgrid` are the redshifts of the grid, 0 and 1024 values evenly
spaced in the logarithm up to `zmax`. -/
def redshiftOf (dist : ℝ → ℝ) (zgrid : List ℝ) (r : ℝ) : Except Err ℝ :=
  interp1d (zgrid.map fun z => (dist z, z)) r

/-- `CartesianToSky` (transform.py 179-264); `c` is the speed of light in km/s. -/
def cartesianToSky (dist : ℝ → ℝ) (zgrid : List ℝ) (c : ℝ) (pos : Vec) (velocity : Option Vec) (observer : Vec) :
    Except Err (Eq × ℝ) :=
  let pos := pos - observer
  let eq := cartesianToEquatorial pos ⟨0, 0, 0⟩
  let r := pos.norm
  match redshiftOf dist zgrid r with
  | .error e => .error e
  | .ok z =>
    match velocity with
    | none => .ok (eq, z)
    | some v =>
      let vpec := pos.dot v / r
      .ok (eq, z + vpec / c * (1 + z))

end NBK.Sky
