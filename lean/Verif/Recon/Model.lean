import Mathlib.Data.Rat.Defs
import Mathlib.Algebra.Order.Ring.Rat
import Mathlib.Algebra.BigOperators.Fin

/-!
# Model of `FFTRecon` (nbodykit/algorithms/fftrecon.py)

Numbers are rational. The mesh is flat with `n` cells, and a catalog is a list of positions for every rank. The resampler
of pmesh, with its decomposition and the periodic box, is the parameter `share`; the transforms and the exponential are
parameters too. A field whose cells are all NaN is `none`.
-/
namespace NBK.Recon

/-- A vector. -/
abbrev V3 := Fin 3 → ℚ

inductive Err where
  /-- `range() arg 3 must not be zero` -/
  | valueError
  /-- an `assert` -/
  | assertion
  deriving DecidableEq, Repr

inductive Scheme where
  | LGS | LF2 | LRR
  deriving DecidableEq, Repr

/-- A real field, `none` when it is NaN everywhere. -/
abbrev Field (n : Nat) := Option (Fin n → ℚ)

/-- What one call of `pm.paint` adds: the objects of all ranks. -/
def paintInto {n : Nat} (share : V3 → Fin n → ℚ) (out : Fin n → ℚ) (dpos : List (List V3)) : Fin n → ℚ :=
  fun c => out c + (dpos.map fun r => (r.map fun p => share p c).sum).sum

/-- `x[sl]` for `sl = slice(i, i + chunksize)`. -/
def chunk {α : Type} (size i : Nat) (l : List α) : List α := (l.drop i).take size

/-- `dpos` of every rank (fftrecon.py 154-157). -/
def dposOf (size i : Nat) (cat : List (List V3)) : Option (List (List V3)) → List (List V3)
  | some s => List.zipWith (fun p d => List.zipWith (fun x y => x - y) (chunk size i p) (chunk size i d)) cat s
  | none => cat.map (chunk size i)

/-- `work_with` (fftrecon.py 139-164): paint the catalog, shifted back by `s`, chunk by chunk, and divide by the mean number of
objects per cell. The division by zero for an empty catalog gives NaN. -/
def workWith {n : Nat} (share : V3 → Fin n → ℚ) (size : Nat) (cat : List (List V3)) (s : Option (List (List V3))) :
    Except Err (Field n) :=
  let nmax := (cat.map List.length).foldl max 0
  let nbar : ℚ := (cat.map List.length).sum / n
  if size = 0 then .error .valueError
  else
    let delta := (List.range ((nmax + size - 1) / size)).foldl (fun out b =>
      let i := b * size
      paintInto share out (dposOf size i cat s)) (fun _ => 0)
    .ok (if nbar = 0 then none else some fun c => delta c / nbar)

/-- `a[...] -= b`. -/
def fsub {n : Nat} (a b : Field n) : Field n := a.bind fun a => b.map fun b => a - b

/-- `a[...] += b`. -/
def fadd {n : Nat} (a b : Field n) : Field n := a.bind fun a => b.map fun b => a + b

/-- `a[...] *= q`. -/
def fscale {n : Nat} (q : ℚ) (a : Field n) : Field n := a.map fun a c => a c * q

/-- The inner function `LGS` (fftrecon.py 175-180). -/
def lgs {n : Nat} (share : V3 → Fin n → ℚ) (size : Nat) (data : List (List V3)) (sd : List (List V3)) (dsr : Field n) :
    Except Err (Field n) := do
  let dsd ← workWith share size data (some sd)
  pure (fsub dsd dsr)

/-- The inner function `LRR` (fftrecon.py 182-192). -/
def lrr {n : Nat} (share : V3 → Fin n → ℚ) (size : Nat) (data ran : List (List V3)) (sr : List (List V3)) (dsr : Field n) :
    Except Err (Field n) := do
  let nr ← workWith share size ran (some (sr.map fun r => r.map fun v => -v))
  let d ← workWith share size data none
  let nr := fadd nr dsr
  let nr := fscale (1 / 2) nr
  pure (fsub d nr)

/-- `_helper_paint` (fftrecon.py 172-215). -/
def helperPaint {n : Nat} (share : V3 → Fin n → ℚ) (size : Nat) (scheme : Scheme) (data ran sd sr : List (List V3)) :
    Except Err (Field n) := do
  let dsr ← workWith share size ran (some sr)
  match scheme with
  | .LGS => lgs share size data sd dsr
  | .LF2 => do
    let g ← lgs share size data sd dsr
    let r ← lrr share size data ran sr dsr
    let g := fscale (3 / 7) g
    let r := fscale (4 / 7) r
    pure (fadd g r)
  | .LRR => lrr share size data ran sr dsr

/-- A complex number. -/
abbrev Cx := ℚ × ℚ

/-- A complex number times a real one. -/
def Cx.smul (q : ℚ) (z : Cx) : Cx := (q * z.1, q * z.2)

/-- `1j * z`. -/
def Cx.mulI (z : Cx) : Cx := (-z.2, z.1)

/-- The square of the length. -/
def norm2 (k : V3) : ℚ := k 0 ^ 2 + k 1 ^ 2 + k 2 ^ 2

/-- `sum(k[i] * los[i])`. -/
def dot (k l : V3) : ℚ := k 0 * l 0 + k 1 * l 1 + k 2 * l 2

/-- `los /= (los ** 2).sum()` (fftrecon.py 97-101); a zero vector becomes NaN, which the assertion refuses. -/
def prepareLos (los : V3) : Except Err V3 :=
  if norm2 los = 0 then .error .assertion else .ok fun i => los i / norm2 los

/-- The parameters in `attrs`. -/
structure Attrs where
  bias : ℚ
  f : ℚ
  los : V3
  /-- `revert_rsd_random` -/
  revert : Bool

/-- The kernel (fftrecon.py 220-235) of one mode. `smooth k2` is `exp(-0.5 * k2 * R**2)`; only the square of `mu` is used, so
that no root is needed. -/
def kernel (a : Attrs) (smooth : ℚ → ℚ) (d : Fin 3) (k : V3) (v : Cx) : Cx :=
  let k2 := norm2 k
  let k2 := if k2 = 0 then 1 else k2
  let mu2 := (dot k a.los) ^ 2 / k2
  let v := v.smul (smooth k2)
  let frac := a.bias * (1 + a.f / a.bias * mu2)
  let v := v.smul (1 / frac)
  Cx.mulI (v.smul (k d / k2))

/-- The transforms and the wavenumbers of the modes. -/
structure Fft (n m : Nat) where
  r2c : (Fin n → ℚ) → Fin m → Cx
  c2r : (Fin m → Cx) → Fin n → ℚ
  k : Fin m → V3

/-- `readout` at a position, with the window of the painting. -/
def readout {n : Nat} (share : V3 → Fin n → ℚ) (f : Fin n → ℚ) (p : V3) : ℚ := ∑ c, share p c * f c

/-- `solve_displacement` (fftrecon.py 241-249). -/
def solve {n m : Nat} (share : V3 → Fin n → ℚ) (t : Fft n m) (a : Attrs) (smooth : ℚ → ℚ) (delta : Fin m → Cx)
    (cat : List (List V3)) : List (List V3) :=
  cat.map fun r => r.map fun p => fun d => readout share (t.c2r fun q => kernel a smooth d (t.k q) (delta q)) p

/-- `s[...] *= (1 + los * f)` (fftrecon.py 262, 266). -/
def addRsd (a : Attrs) (s : List (List V3)) : List (List V3) := s.map fun r => r.map fun v d => v d * (1 + a.los d * a.f)

/-- `_compute_s` (fftrecon.py 217-268) of a field of data that is not NaN. -/
def computeS {n m : Nat} (share : V3 → Fin n → ℚ) (t : Fft n m) (a : Attrs) (smooth : ℚ → ℚ) (size : Nat)
    (data ran : List (List V3)) : Except Err (Option (List (List V3) × List (List V3))) := do
  let d ← workWith share size data none
  match d with
  | none => pure none
  | some d =>
    let delta := t.r2c d
    let sd := addRsd a (solve share t a smooth delta data)
    let sr := solve share t a smooth delta ran
    let sr := if a.revert then addRsd a sr else sr
    pure (some (sd, sr))

/-- `run` (fftrecon.py 134-137) with the direction given to the constructor. -/
def run {n m : Nat} (share : V3 → Fin n → ℚ) (t : Fft n m) (a : Attrs) (smooth : ℚ → ℚ) (size : Nat) (scheme : Scheme)
    (data ran : List (List V3)) : Except Err (Field n) := do
  let los ← prepareLos a.los
  let s ← computeS share t { a with los := los } smooth size data ran
  match s with
  | none => pure none
  | some (sd, sr) => helperPaint share size scheme data ran sd sr

end NBK.Recon
