import Mathlib.Algebra.Ring.Defs
import Mathlib.Algebra.BigOperators.Group.List.Basic

/-!
# Model of `YlmCache` (nbodykit/algorithms/threeptcf.py 393-481)

An expression of sympy is a polynomial in `xpyhat` and `zhat`: the list of its terms with a coefficient and two powers.  Whether
sympy replaces a power by a look-up in the cache is a parameter.
-/
namespace NBK.TpcfObj

inductive CErr where
  | valueError | keyError | zeroDivision
  deriving DecidableEq, Repr

/-- `lms` (threeptcf.py 417). -/
def lms (ells : List Nat) : List (Nat × Nat) := ells.flatMap fun l => (List.range (l + 1)).map fun m => (l, m)

/-- `range(rank, n, size)` -/
def strided (rank size n : Nat) : List Nat := (List.range n).filter fun i => decide (rank ≤ i) && (i - rank) % size == 0

/-- The pairs whose expressions a rank computes (threeptcf.py 420-423). -/
def share {α : Type} (xs : List α) (rank size : Nat) : List α := (strided rank size xs.length).filterMap fun i => xs[i]?

/-- `exprs` after the `allgather` (threeptcf.py 424). -/
def gathered {α : Type} (xs : List α) (size : Nat) : List α := (List.range size).flatMap fun r => share xs r size

/-- `ell_to_iell` (threeptcf.py 412-415): `none` for entries never written. -/
def iell (ells : List Nat) : Nat → Option Nat :=
  (ells.zipIdx).foldl (fun t p => fun l => if l = p.1 then some p.2 else t l) fun _ => none

/-- The variables. -/
inductive Var where
  | xpy | z
  deriving DecidableEq, Repr

/-- `_cache`. -/
abbrev Cache (R : Type) := Var → Nat → Option R

variable {R : Type} [CommRing R]

/-- `cache[name + str(i)] = v` -/
def Cache.set (c : Cache R) (v : Var) (i : Nat) (x : Option R) : Cache R := fun v' i' => if v' = v ∧ i' = i then x else c v' i'

/-- One turn of the loop that fills the powers; a missing entry would raise (threeptcf.py 474-475). -/
def fillStep (v : Var) (x : R) (c : Cache R) (i : Nat) : Cache R := c.set v i ((c v (i - 1)).map (· * x))

/-- Filling the cache (threeptcf.py 470-475), over what an earlier call left in it. -/
def fill (maxEll : Nat) (xpy z : R) (c : Cache R) : Cache R :=
  let c := (c.set .xpy 2 (some (xpy * xpy))).set .z 2 (some (z * z))
  let is := (List.range (maxEll + 1)).filter fun i => 3 ≤ i
  is.foldl (fillStep .z z) (is.foldl (fillStep .xpy xpy) c)

/-- A term of an expression: coefficient, power of `xpyhat`, power of `zhat`. -/
structure Term (R : Type) where
  c : R
  a : Nat
  b : Nat

/-- A power of a variable in a lambdified expression: read from the cache where sympy replaced it, which it does for exponents up to
the largest degree (threeptcf.py 426-455). -/
def power (maxEll : Nat) (replaced : Var → Nat → Bool) (c : Cache R) (v : Var) (x : R) (e : Nat) : Except CErr R :=
  if (decide (2 ≤ e) && decide (e ≤ maxEll) && replaced v e) = true then
    match c v e with
    | some y => .ok y
    | none => .error .keyError
  else .ok (x ^ e)

/-- The value of an expression. -/
def evalExpr (maxEll : Nat) (replaced : Var → Nat → Bool) (c : Cache R) (xpy z : R) : List (Term R) → Except CErr R
  | [] => .ok 0
  | t :: ts => match power maxEll replaced c .xpy xpy t.a with
    | .error e => .error e
    | .ok p => match power maxEll replaced c .z z t.b with
      | .error e => .error e
      | .ok q => match evalExpr maxEll replaced c xpy z ts with
        | .error e => .error e
        | .ok s => .ok (t.c * p * q + s)

/-- `d[key] = v` in an ordered dictionary. -/
def put {α β : Type} [DecidableEq α] (d : List (α × β)) (k : α) (v : β) : List (α × β) :=
  if d.any (fun p => p.1 = k) = true then d.map fun p => if p.1 = k then (k, v) else p else d ++ [(k, v)]

/-- The table of a cache object: the largest degree and the expressions of the `(l, m)` (threeptcf.py 402-455). `max` of no
multipoles raises.  `expr` gives the expression of `_get_Ylm`. -/
def table (expr : Nat × Nat → List (Term R)) (size : Nat) (ells : List Nat) : Except CErr (Nat × List ((Nat × Nat) × List (Term R))) :=
  match ells.max? with
  | none => .error .valueError
  | some maxEll => .ok (maxEll, (gathered (lms ells) size).foldl (fun d lm => put d lm (expr lm)) [])

/-- Evaluation of all expressions (threeptcf.py 477-480). -/
def evalAll (maxEll : Nat) (replaced : Nat × Nat → Var → Nat → Bool) (c : Cache R) (xpy z : R) :
    List ((Nat × Nat) × List (Term R)) → Except CErr (List ((Nat × Nat) × R))
  | [] => .ok []
  | x :: xs => match evalExpr maxEll (replaced x.1) c xpy z x.2 with
    | .error e => .error e
    | .ok v => match evalAll maxEll replaced c xpy z xs with
      | .error e => .error e
      | .ok vs => .ok ((x.1, v) :: vs)

/-- `__call__` (threeptcf.py 457-481): the values, and the cache afterwards. -/
def call (tab : Nat × List ((Nat × Nat) × List (Term R))) (replaced : Nat × Nat → Var → Nat → Bool) (c : Cache R) (xpy z : R) :
    Except CErr (List ((Nat × Nat) × R)) × Cache R :=
  let c := fill tab.1 xpy z c
  (evalAll tab.1 replaced c xpy z tab.2, c)

end NBK.TpcfObj
