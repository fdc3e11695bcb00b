import Mathlib.Analysis.SpecialFunctions.Trigonometric.Basic
import Mathlib.Analysis.Real.Sqrt
import Mathlib.Analysis.Complex.Basic

/-!
# Model of the compensation for the mass assignment (nbodykit/source/mesh/catalog.py 404-594)

Numbers are real and the field is complex. The windows are those of pmesh, as functions of the distance in cells.
-/
namespace NBK.Comp

inductive Err
  | valueError
  /-- the setter asserts that the name is known -/
  | assertion
  /-- the functions look at three axes -/
  | indexError
deriving DecidableEq, Repr

/-- The six functions (catalog.py 453-594). -/
inductive Kernel | CIC | TSC | PCS | CICShotnoise | TSCShotnoise | PCSShotnoise
deriving DecidableEq, Repr

/-- `get_compensation` (catalog.py 418-451). -/
def getCompensation (interlaced : Bool) (resampler : String) : Except Err Kernel :=
  if interlaced then
    if resampler = "cic" then .ok .CIC else if resampler = "tsc" then .ok .TSC else if resampler = "pcs" then .ok .PCS else .error .valueError
  else
    if resampler = "cic" then .ok .CICShotnoise else if resampler = "tsc" then .ok .TSCShotnoise
    else if resampler = "pcs" then .ok .PCSShotnoise else .error .valueError

/-- The attributes of a `CatalogMesh` that matter here. -/
structure Mesh where
  interlaced : Bool
  compensated : Bool
  resampler : String
deriving DecidableEq, Repr

/-- `to_mesh` (base/catalog.py 843-847, 866-873) and the constructor (catalog.py 94-96): the name of the resampler has to be one of `methods` (the names of
pmesh, in capitals and in small letters) and is kept as given. -/
def toMesh (methods : List String) (resampler : String) (interlaced compensated : Bool) : Except Err Mesh :=
  if resampler ∈ methods then .ok ⟨interlaced, compensated, resampler⟩ else .error .valueError

/-- `str.lower` for plain letters. -/
def lower (s : String) : String := String.ofList (s.toList.map Char.toLower)

/-- `mesh.resampler = value` and `mesh.window = value` (catalog.py 117-119, 134-137). -/
def setResampler (methods : List String) (m : Mesh) (value : String) : Except Err Mesh :=
  if value ∈ methods then .ok { m with resampler := lower value } else .error .assertion

/-- The property `actions` (catalog.py 405-417): the filter of the compensation (with modes in circular frequencies) before the actions `acts` of the mesh. -/
def actions {α : Type} (m : Mesh) (acts : List α) : Except Err (List (Kernel ⊕ α)) :=
  if m.compensated then (getCompensation m.interlaced m.resampler).map fun k => .inl k :: acts.map .inr else .ok (acts.map .inr)

/-- `numpy.sinc`. -/
noncomputable def sinc (x : ℝ) : ℝ := if x = 0 then 1 else Real.sin (Real.pi * x) / (Real.pi * x)

/-- The number the field is divided by for one axis (catalog.py 470-473, 493-496, 516-520, 541-544, 570-573, 591-593). -/
noncomputable def divisor : Kernel → ℝ → ℝ
  | .CIC, wi => if wi = 0 then 1 else sinc (1 / 2 * wi / Real.pi) ^ 2
  | .TSC, wi => sinc (1 / 2 * wi / Real.pi) ^ 3
  | .PCS, wi => sinc (1 / 2 * wi / Real.pi) ^ 4
  | .CICShotnoise, wi => Real.sqrt (1 - 2 / 3 * Real.sin (1 / 2 * wi) ^ 2)
  | .TSCShotnoise, wi =>
    let s := Real.sin (1 / 2 * wi) ^ 2
    Real.sqrt (1 - s + 2 / 15 * s ^ 2)
  | .PCSShotnoise, wi =>
    let s := Real.sin (1 / 2 * wi) ^ 2
    Real.sqrt (1 - 4 / 3 * s + 2 / 5 * s ^ 2 - 4 / 315 * s ^ 3)

/-- The function applied to a mode with the circular frequencies `w` (`for i in range(3)`). -/
noncomputable def apply (k : Kernel) (w : List ℝ) (v : ℂ) : Except Err ℂ :=
  match w with
  | w0 :: w1 :: w2 :: _ => .ok (v / (divisor k w0 : ℂ) / (divisor k w1 : ℂ) / (divisor k w2 : ℂ))
  | _ => .error .indexError

end NBK.Comp
