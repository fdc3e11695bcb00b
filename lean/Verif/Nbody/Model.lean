import Verif.Growth.Model

/-!
# Model of the linear fluid model as an object (nbodykit/cosmology/linearnbody.py)

Numbers are real. `solve_ivp` is a parameter: it gets the function, the span, the first vector and the times, and returns the times and, for every component of the vector, its values at
these times. The function of one mode is that of topic `Growth`.
-/
set_option linter.unusedSimpArgs false
namespace NBK.Nbody
open NBK.Growth (Fluids)

inductive Err where
  | valueError | zeroDivision | indexError
  deriving DecidableEq, Repr

/-- One number for each of cdm, baryons and ncdm. -/
abbrev V3 := ℝ × ℝ × ℝ

/-- A row of the structured array of `get_transfer` with the columns that are used. -/
structure Row where
  k : ℝ
  d_cdm : ℝ
  d_b : ℝ
  d_ncdm : ℝ
  h_prime : ℝ
  t_b : ℝ
  t_ncdm : ℝ

/-- A `Cosmology`: the gauge, `hubble_function(0)`, and the transfer function that its parameters have in every gauge. -/
structure Cosmology where
  gauge : String
  hubble0 : ℝ
  transfer : String → ℝ → List Row

/-- `clone(gauge=g)`. -/
def Cosmology.clone (c : Cosmology) (g : String) : Cosmology := { c with gauge := g }

/-- `get_transfer(z)`. -/
def Cosmology.getTransfer (c : Cosmology) (z : ℝ) : List Row := c.transfer c.gauge z

/-- The displacements and momenta of one row (linearnbody.py 191-195). -/
noncomputable def seedRow (a0 H0 : ℝ) (r : Row) : V3 × V3 :=
  ((-r.d_cdm, -r.d_b, -r.d_ncdm), (1 / 2 * r.h_prime * a0 / H0, r.t_b + 1 / 2 * r.h_prime * a0 / H0, r.t_ncdm + 1 / 2 * r.h_prime * a0 / H0))

/-- `seed_from_synchronous` (linearnbody.py 148-197). The name of the gauge is misspelled in the comparison (line 180). -/
noncomputable def seed (c : Cosmology) (a0 : ℝ) (Tk : Option (List Row)) : Except Err (List ℝ × List V3 × List V3) :=
  let go (c : Cosmology) (T : List Row) : List ℝ × List V3 × List V3 :=
    (T.map Row.k, T.map fun r => (seedRow a0 c.hubble0 r).1, T.map fun r => (seedRow a0 c.hubble0 r).2)
  match Tk with
  | some T => .ok (go c T)
  | none =>
    let c := if c.gauge ≠ "synchronuous" then c.clone "synchronous" else c
    if a0 = 0 then .error .zeroDivision else .ok (go c (c.getTransfer (1 / a0 - 1)))

/-- The `background`: functions of redshift, and the masses of the neutrinos. -/
structure Background where
  efunc : ℝ → ℝ
  Omega_cdm : ℝ → ℝ
  Omega_b : ℝ → ℝ
  Omega_ncdm : ℝ → ℝ
  m_ncdm : List ℝ

/-- What `J` and `func` take from the object at a scale factor (linearnbody.py 31-49, 98-100, 121-133). -/
noncomputable def fluids (g : Background) (c_b c1 : ℝ) : Except Err Fluids :=
  let make (cn : ℝ → ℝ) : Fluids :=
    ⟨fun a => g.efunc (1 / a - 1), fun a => g.Omega_cdm (1 / a - 1), fun a => g.Omega_b (1 / a - 1), fun a => g.Omega_ncdm (1 / a - 1), c_b, cn⟩
  if c1 > 0 then
    match g.m_ncdm with
    | [] => .error .indexError
    | m :: _ => .ok (make fun a => c1 / m / a)
  else .ok (make fun _ => 0)

/-- `ravel()` of an array of shape `(Nk, 3)`. -/
def flat : List V3 → List ℝ
  | [] => []
  | v :: l => v.1 :: v.2.1 :: v.2.2 :: flat l

/-- `reshape(Nk, 3)`. -/
def rows : Nat → List ℝ → List V3
  | 0, _ => []
  | n + 1, l => (l.getD 0 0, l.getD 1 0, l.getD 2 0) :: rows n (l.drop 3)

/-- `marshal` (linearnbody.py 85-87). -/
def marshal (q p : List V3) : List ℝ := flat q ++ flat p

/-- The wavenumbers of the rows in `einsum('kij,kj->ki', ...)`: one value goes with all rows. -/
def spread (n : Nat) (k : List ℝ) : List ℝ := if k.length = 1 then List.replicate n (k.getD 0 0) else k

/-- `func` (linearnbody.py 91-107): the vector is cut in the middle, and the arrays get the shapes of `q0` and `p0`, with `n` rows each. -/
noncomputable def func (f : Fluids) (k : List ℝ) (n : Nat) (lna : ℝ) (v : List ℝ) : List ℝ :=
  let q := rows n (v.take (v.length / 2))
  let p := rows n (v.drop (v.length / 2))
  let d := (spread n k).zipWith (fun k x => f.rhs k lna x.1 x.2) (q.zip p)
  marshal (d.map Prod.fst) (d.map Prod.snd)

/-- What `solve_ivp` is asked: the function, the span, the first vector and `t_eval`; and what it returns: `r.t`, `r.y`. -/
abbrev Solver := (ℝ → List ℝ → List ℝ) → ℝ → ℝ → List ℝ → List ℝ → Except Err (List ℝ × List (List ℝ))

/-- The array of shape `(Nk, 3)` at time number `i`: `r.y[...].reshape(Nk, 3, -1).transpose((2, 0, 1))[i]`. -/
def atTime (n : Nat) (y : List (List ℝ)) (i : Nat) : List V3 := rows n (y.map fun l => l.getD i 0)

/-- `integrate` (linearnbody.py 51-115). The arrays `q0` and `p0` have `n` rows; with another number of wavenumbers than 1 or `n`, `einsum` or the concatenation of the results refuses. -/
noncomputable def integrate (solve : Solver) (f : Fluids) (k : List ℝ) (q0 p0 : List V3) (a : List ℝ) : Except Err (List ℝ × List (List V3) × List (List V3)) :=
  let lna := a.map Real.log
  match lna.head?, lna.getLast? with
  | some t0, some t1 =>
    if p0.length ≠ q0.length ∨ (k.length ≠ 1 ∧ k.length ≠ q0.length) then .error .valueError
    else
      (solve (func f k q0.length) t0 t1 (marshal q0 p0) lna).map fun r =>
        let half := (marshal q0 p0).length / 2
        let ts := List.range r.1.length
        (r.1.map Real.exp, ts.map (atTime q0.length (r.2.take half)), ts.map (atTime p0.length (r.2.drop half)))
  | _, _ => .error .indexError

end NBK.Nbody
