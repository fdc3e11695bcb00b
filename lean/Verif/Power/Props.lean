import Verif.Power.Model
import Mathlib.Algebra.Order.Field.Basic
import Mathlib.Analysis.Real.Sqrt
import Mathlib.Algebra.Order.Floor.Ring
import Mathlib.Tactic.FieldSimp
import Mathlib.Tactic.Ring
import Mathlib.Tactic.Linarith
import Mathlib.Tactic.LinearCombination
import Mathlib.Tactic.NormNum
import Mathlib.Tactic.Positivity

/-!
# Power spectrum objects (C81, C82)
-/
set_option linter.unusedSimpArgs false

namespace NBK.Power

variable {K : Type} [Field K] [LinearOrder K] [IsStrictOrderedRing K]

/-! ## Specification -/

/-- The last redshift assigned. -/
def lastZ (z0 : K) : List (Op K) → K
  | [] => z0
  | .redshift z :: l => lastZ z l
  | .sigma8 _ :: l => lastZ z0 l

/-- The last `sigma8` assigned. -/
def lastSigma8 (s0 : K) : List (Op K) → K
  | [] => s0
  | .redshift _ :: l => lastSigma8 s0 l
  | .sigma8 v :: l => lastSigma8 v l

/-- No assignment sets `sigma8` to zero. -/
def NonZero : List (Op K) → Prop
  | [] => True
  | .redshift _ :: l => NonZero l
  | .sigma8 v :: l => v ≠ 0 ∧ NonZero l

/-- The laws of the parameters: roots, powers, the variance is homogeneous, and the fluctuations of the cosmology do not vanish. -/
structure Lawful (e : Env K) : Prop where
  sqrt : ∀ x, 0 ≤ x → e.sqrt x ^ 2 = x
  tilt : ∃ c, 0 < c ∧ ∀ k, 0 < k → e.tiltH k = c * e.tilt k
  tilt_pos : ∀ k, 0 < k → 0 < e.tilt k
  h : 0 < e.h
  pklin : ∀ z k, 0 < k → 0 < e.pklin z k
  sigmaR : ∀ (c : K) (P : K → K), e.sigmaR (fun k => c ^ 2 * P k) ^ 2 = c ^ 2 * e.sigmaR P ^ 2
  KMIN : 0 < e.KMIN
  sigma8 : e.sigma8 ≠ 0

/-- The fluctuations of the unnormalised power at redshift 0 do not vanish. -/
def Fluctuates (e : Env K) (kind : Kind) : Prop :=
  e.sigmaR (fn e { kind := kind, norm := 1, sigma8 := e.sigma8, z := 0, transferZ := 0, fallbackZ := 0 }) ≠ 0

/-! ## The linear power -/

omit [IsStrictOrderedRing K] in
/-- The value is the norm times a function of kind and redshift only. -/
theorem call_norm (e : Env K) (o : Lin K) (scalar : Bool) (k : K) :
    call e o scalar false k = o.norm * call e { o with norm := 1 } scalar false k := by
  obtain ⟨kind, norm, s, z, tz, fz⟩ := o
  unfold call
  cases kind <;> simp [transferCall, fallbackCall]

omit [IsStrictOrderedRing K] in
theorem call_congr (e : Env K) (o o' : Lin K) (h1 : o.kind = o'.kind) (h2 : o.transferZ = o'.transferZ) (h3 : o.fallbackZ = o'.fallbackZ)
    (scalar : Bool) (k : K) : call e { o with norm := 1 } scalar false k = call e { o' with norm := 1 } scalar false k := by
  unfold call transferCall fallbackCall
  dsimp only
  rw [h1, h2, h3]

omit [IsStrictOrderedRing K] in
theorem run_spec (o : Lin K) (ops : List (Op K)) (h0 : o.sigma8 ≠ 0) (hz : NonZero ops) (hsync : o.transferZ = o.z ∧ o.fallbackZ = o.z) :
    ∃ o', run o ops = .ok o' ∧ o'.kind = o.kind ∧ o'.z = lastZ o.z ops ∧ o'.transferZ = o'.z ∧ o'.fallbackZ = o'.z ∧
      o'.sigma8 = lastSigma8 o.sigma8 ops ∧ o'.norm = o.norm * (o'.sigma8 / o.sigma8) ^ 2 ∧ o'.sigma8 ≠ 0 := by
  induction ops generalizing o with
  | nil => exact ⟨o, rfl, rfl, rfl, hsync.1, hsync.2, rfl, by rw [div_self h0]; ring, h0⟩
  | cons x l ih =>
    cases x with
    | redshift z =>
      obtain ⟨o', a, b⟩ := ih (setRedshift o z) h0 hz ⟨rfl, rfl⟩
      exact ⟨o', a, b⟩
    | sigma8 v =>
      have hs : setSigma8 o v = .ok { o with norm := o.norm * (v / o.sigma8) ^ 2, sigma8 := v } := by
        unfold setSigma8; rw [if_neg h0]
      obtain ⟨o', a, b1, b2, b3, b4, b5, b6, b7⟩ := ih { o with norm := o.norm * (v / o.sigma8) ^ 2, sigma8 := v } hz.1 hz.2 hsync
      refine ⟨o', ?_, b1, b2, b3, b4, b5, ?_, b7⟩
      · simp only [run, step, hs, bind, Except.bind]; exact a
      · rw [b6]
        dsimp only
        have := hz.1
        field_simp

omit [IsStrictOrderedRing K] in
/-- **C81** (partial: no assignment of zero, see `sigma8_zero`). After any history of assignments to `redshift` and `sigma8`, the object has the
values assigned last, and its power is that of a new object at this redshift, scaled with the square of `sigma8`. -/
theorem linear_history_partial (e : Env K) (kind : Kind) (z0 : K) (h8 : e.sigma8 ≠ 0) (ops : List (Op K)) (hz : NonZero ops) :
    ∃ o, run (init e kind z0) ops = .ok o ∧ o.z = lastZ z0 ops ∧ o.sigma8 = lastSigma8 e.sigma8 ops ∧
      ∀ scalar k, call e o scalar false k = (o.sigma8 / e.sigma8) ^ 2 * call e (init e kind o.z) scalar false k := by
  obtain ⟨o, a, b1, b2, b3, b4, b5, b6, b7⟩ := run_spec (init e kind z0) ops h8 hz ⟨rfl, rfl⟩
  refine ⟨o, a, b2, b5, ?_⟩
  intro scalar k
  rw [call_norm, call_norm e (init e kind o.z), b6, call_congr e o (init e kind o.z) b1 b3 b4]
  have : (init e kind z0).norm = (init e kind o.z).norm := rfl
  rw [this]
  have : (init e kind z0).sigma8 = e.sigma8 := rfl
  rw [this]
  ring

/-- **C81**: at redshift 0 the fluctuations in spheres of 8 Mpc/h are `sigma8`, after any history. -/
theorem linear_sigma8 (e : Env K) (hl : Lawful e) (kind : Kind) (z0 : K) (hf : Fluctuates e kind) (ops : List (Op K)) (hz : NonZero ops) :
    ∃ o, run (init e kind z0) (ops ++ [.redshift 0]) = .ok o ∧ e.sigmaR (fn e o) ^ 2 = lastSigma8 e.sigma8 ops ^ 2 := by
  have hz' : NonZero (ops ++ [.redshift 0]) := by
    induction ops with
    | nil => trivial
    | cons x l ih => cases x with
      | redshift z => exact ih hz
      | sigma8 v => exact ⟨hz.1, ih hz.2⟩
  have hlz : ∀ z : K, lastZ z (ops ++ [.redshift 0]) = 0 := by
    intro z
    clear hz hz'
    induction ops generalizing z with
    | nil => rfl
    | cons x l ih => cases x <;> exact ih _
  have hls : ∀ s : K, lastSigma8 s (ops ++ [.redshift 0]) = lastSigma8 s ops := by
    intro s
    clear hz hz' hlz
    induction ops generalizing s with
    | nil => rfl
    | cons x l ih => cases x <;> exact ih _
  obtain ⟨o, a, b1, b2, b3, b4, b5, b6, b7⟩ := run_spec (init e kind z0) (ops ++ [.redshift 0]) hl.sigma8 hz' ⟨rfl, rfl⟩
  refine ⟨o, a, ?_⟩
  rw [hlz] at b2
  rw [hls] at b5
  have hfn : fn e o = fun k => (o.sigma8 / e.sigmaR (fn e { kind := kind, norm := 1, sigma8 := e.sigma8, z := 0, transferZ := 0, fallbackZ := 0 })) ^ 2 *
      fn e { kind := kind, norm := 1, sigma8 := e.sigma8, z := 0, transferZ := 0, fallbackZ := 0 } k := by
    funext k
    unfold fn
    rw [call_norm, b6, call_congr e o { kind := kind, norm := 1, sigma8 := e.sigma8, z := 0, transferZ := 0, fallbackZ := 0 } b1 (b3.trans b2) (b4.trans b2)]
    have h1 : (init e kind z0).norm = (e.sigma8 / e.sigmaR (fn e { kind := kind, norm := 1, sigma8 := e.sigma8, z := 0, transferZ := 0, fallbackZ := 0 })) ^ 2 := rfl
    have h2 : (init e kind z0).sigma8 = e.sigma8 := rfl
    rw [h1, h2]
    have := hl.sigma8
    unfold fn
    field_simp
  rw [hfn, hl.sigmaR, b5]
  have : (init e kind z0).sigma8 = e.sigma8 := rfl
  rw [this]
  unfold Fluctuates at hf
  field_simp

omit [IsStrictOrderedRing K] in
/-- **C81 fails** after `sigma8 = 0`: no other value can be assigned any more. -/
theorem sigma8_zero (o : Lin K) (h0 : o.sigma8 ≠ 0) (v : K) : run o [.sigma8 0, .sigma8 v] = .error .zeroDivision := by
  simp [run, step, setSigma8, h0, bind, Except.bind]

/-- The root in the transfer function. -/
theorem class_sq (e : Env K) (hl : Lawful e) (n z k : K) (hk : 0 < k) :
    ∃ c, 0 < c ∧ (∀ k, 0 < k → e.tiltH k = c * e.tilt k) ∧ e.tilt k * classCall e n z k ^ 2 = n ^ 2 / (c * e.h ^ 3) * e.pklin z k := by
  obtain ⟨c, hc, ht⟩ := hl.tilt
  refine ⟨c, hc, ht, ?_⟩
  have h1 := hl.tilt_pos k hk
  have h2 := hl.h
  have h3 := hl.pklin z k hk
  unfold classCall
  rw [if_pos hk]
  dsimp only
  rw [mul_pow, ht k hk, hl.sqrt _ (by positivity)]
  field_simp

/-- **C82**: with the transfer function of CLASS the power is proportional to CLASS's linear power, with one factor for all redshifts and all
wavenumbers below the limit. -/
theorem class_power (e : Env K) (hl : Lawful e) (z0 : K) :
    ∃ c, ∀ z k, 0 < k → k < e.below * e.kmax → fn e (setRedshift (init e .CLASS z0) z) k = c * e.pklin z k := by
  obtain ⟨c, hc, ht⟩ := hl.tilt
  refine ⟨(init e .CLASS z0).norm * (classNorm e ^ 2 / (c * e.h ^ 3)), ?_⟩
  intro z k hk hb
  have h1 := hl.tilt_pos k hk
  have h2 := hl.h
  have h3 := hl.pklin z k hk
  have hv : fn e (setRedshift (init e .CLASS z0) z) k = (init e .CLASS z0).norm * (e.tilt k * classCall e (classNorm e) z k ^ 2) := by
    unfold fn call
    simp only [setRedshift, init, hb, if_true, transferCall, Bool.false_eq_true, if_false]
  rw [hv]
  unfold classCall
  rw [if_pos hk]
  dsimp only
  rw [mul_pow, ht k hk, hl.sqrt _ (by positivity)]
  field_simp

omit [IsStrictOrderedRing K] in
/-- At `k = 0` the transfer function of CLASS is the growth function, as are the analytic ones for an array. -/
theorem class_zero (e : Env K) (f : K → K) (n z : K) : classCall e n z 0 = e.growth z ∧ classCall e n z 0 = ehCall e f false z 0 := by
  have h : classCall e n z 0 = e.growth z := by
    unfold classCall
    rw [if_neg (lt_irrefl _)]
  refine ⟨h, ?_⟩
  rw [h]
  unfold ehCall
  simp

/-- **C82**: the transfer function of CLASS is 1 at the smallest wavenumber at redshift 0. -/
theorem class_unit (e : Env K) (hl : Lawful e) : classCall e (classNorm e) 0 e.KMIN = 1 := by
  obtain ⟨c, hc, ht, hsq⟩ := class_sq e hl 1 0 e.KMIN hl.KMIN
  have h1 := hl.tilt_pos e.KMIN hl.KMIN
  have h2 := hl.h
  have h3 := hl.pklin 0 e.KMIN hl.KMIN
  have hne : classCall e 1 0 e.KMIN ≠ 0 := by
    intro h
    rw [h] at hsq
    have : 0 < (1 : K) ^ 2 / (c * e.h ^ 3) * e.pklin 0 e.KMIN := by positivity
    rw [← hsq] at this
    simp at this
  have : classCall e (classNorm e) 0 e.KMIN = classNorm e * classCall e 1 0 e.KMIN := by
    unfold classCall
    rw [if_pos hl.KMIN, if_pos hl.KMIN]
    ring
  rw [this]
  unfold classNorm
  field_simp

/-- **C82**: beyond the limit the power follows the fitting formula, joined to the power of CLASS at `P_k_max`. -/
theorem class_beyond (e : Env K) (hl : Lawful e) (z0 : K) (hb : e.below < 1) (hk0 : 0 < e.kmax) (heh : ∀ k, 0 < k → 0 < e.eh k)
    (hg : ∀ z, 0 < e.growth z) :
    ∃ c, (∀ z k, 0 < k → k < e.below * e.kmax → fn e (setRedshift (init e .CLASS z0) z) k = c * e.pklin z k) ∧
      (∀ z, fn e (setRedshift (init e .CLASS z0) z) e.kmax = c * e.pklin z e.kmax) ∧
      ∀ z k, e.below * e.kmax ≤ k → 0 < k → fn e (setRedshift (init e .CLASS z0) z) k * (e.tilt e.kmax * e.eh e.kmax ^ 2) =
        fn e (setRedshift (init e .CLASS z0) z) e.kmax * (e.tilt k * e.eh k ^ 2) := by
  obtain ⟨c, hc, ht⟩ := hl.tilt
  have key : ∀ z k, 0 < k → e.tilt k * classCall e (classNorm e) z k ^ 2 = classNorm e ^ 2 / (c * e.h ^ 3) * e.pklin z k := by
    intro z k hk
    have h1 := hl.tilt_pos k hk
    have h2 := hl.h
    have h3 := hl.pklin z k hk
    unfold classCall
    rw [if_pos hk]
    dsimp only
    rw [mul_pow, ht k hk, hl.sqrt _ (by positivity)]
    field_simp
  have hin : ∀ z k, k < e.below * e.kmax → fn e (setRedshift (init e .CLASS z0) z) k =
      (init e .CLASS z0).norm * (e.tilt k * classCall e (classNorm e) z k ^ 2) := by
    intro z k hb
    unfold fn call
    simp only [setRedshift, init, hb, if_true, transferCall, Bool.false_eq_true, if_false]
  have hout : ∀ z k, e.below * e.kmax ≤ k → 0 < k → fn e (setRedshift (init e .CLASS z0) z) k =
      (init e .CLASS z0).norm * (e.tilt k * (e.eh k * (classCall e (classNorm e) z e.kmax / e.eh e.kmax)) ^ 2) := by
    intro z k hb hk
    unfold fn call
    simp only [setRedshift, init, not_lt.mpr hb, if_false, transferCall, fallbackCall, Bool.false_eq_true, ehCall, false_and,
      hk0.ne', and_false, if_pos hk, if_pos hk0]
    have := (hg z).ne'
    have := (heh _ hk0).ne'
    field_simp
  refine ⟨(init e .CLASS z0).norm * (classNorm e ^ 2 / (c * e.h ^ 3)), ?_, ?_, ?_⟩
  · intro z k hk hb
    rw [hin z k hb, key z k hk]; ring
  · intro z
    have h5 : e.below * e.kmax ≤ e.kmax := by nlinarith
    rw [hout z e.kmax h5 hk0]
    have h6 : e.eh e.kmax * (classCall e (classNorm e) z e.kmax / e.eh e.kmax) = classCall e (classNorm e) z e.kmax := by
      have := (heh _ hk0).ne'
      field_simp
    rw [h6, key z e.kmax hk0]; ring
  · intro z k hb' hk
    have h5 : e.below * e.kmax ≤ e.kmax := by nlinarith
    rw [hout z k hb' hk, hout z e.kmax h5 hk0]
    ring

omit [IsStrictOrderedRing K] in
/-- **C82 fails** for wavenumbers that are integers: the power of CLASS, before it is normalised, is written to an array of integers. If it is
less than one there the result is zero. -/
theorem class_integers (e : Env K) (ht : ∀ x, 0 ≤ x → x < 1 → e.trunc x = 0) (o : Lin K) (ho : o.kind = .CLASS) (k : K)
    (h0 : 0 ≤ call e { o with norm := 1 } false false k) (h1 : call e { o with norm := 1 } false false k < 1) (scalar : Bool) :
    call e o scalar true k = 0 := by
  have hc : call e o scalar true k = o.norm * e.trunc (call e { o with norm := 1 } false false k) := by
    unfold call
    rw [ho]
    simp only [transferCall, fallbackCall, ho, Bool.false_eq_true, if_false, if_true, one_mul]
  rw [hc, ht _ h0 h1, mul_zero]

omit [IsStrictOrderedRing K] in
/-- With the fitting formulas integers make no difference. -/
theorem eh_integers (e : Env K) (o : Lin K) (ho : o.kind ≠ .CLASS) (scalar : Bool) (k : K) :
    call e o scalar true k = call e o scalar false k := by
  unfold call
  cases h : o.kind with
  | CLASS => exact absurd h ho
  | EisensteinHu => rfl
  | NoWiggleEisensteinHu => rfl

omit [IsStrictOrderedRing K] in
/-- The fitting formulas for an array: the formula times the growth factor, 1 at `k = 0` at redshift 0. -/
theorem eh_array (e : Env K) (f : K → K) (z k : K) : ehCall e f false z k = (if k > 0 then f k else 1) * e.growth z := by
  unfold ehCall
  simp

omit [IsStrictOrderedRing K] in
/-- **C82 fails** for the number 0: the growth factor is missing, unlike for an array that holds 0. -/
theorem eh_zero (e : Env K) (f : K → K) (z : K) : ehCall e f true z 0 = 1 ∧ ehCall e f false z 0 = e.growth z := by
  unfold ehCall
  simp

/-! ## Zel'dovich and Halofit -/

section
variable {S : Type}

omit [IsStrictOrderedRing K] in
/-- **C81** for `ZeldovichPower` (partial: no assignment of zero): after any history the power is computed from integrals of the linear power
with the redshift and `sigma8` assigned last. -/
theorem zeldovich_history_partial (e : Env K) (c : ZelEnv K S) (kind : Kind) (z0 : K) (h8 : e.sigma8 ≠ 0) (ops : List (Op K))
    (hz : NonZero ops) :
    ∃ o, Zel.run e c (Zel.init e c kind z0) ops = .ok o ∧ o.z = lastZ z0 ops ∧ o.sigma8 = lastSigma8 e.sigma8 ops ∧
      ∀ k, o.call e c k = (let P := fun q => (o.sigma8 / e.sigma8) ^ 2 * fn e (init e kind o.z) q; c.power (c.setup P) P k) := by
  have key : ∀ (ops : List (Op K)) (o : Zel K S), NonZero ops → o.plin.sigma8 ≠ 0 → o.cache = c.setup (fn e o.plin) → o.z = o.plin.z → o.sigma8 = o.plin.sigma8 →
      ∃ o', Zel.run e c o ops = .ok o' ∧ run o.plin ops = .ok o'.plin ∧ o'.cache = c.setup (fn e o'.plin) ∧ o'.z = o'.plin.z ∧ o'.sigma8 = o'.plin.sigma8 := by
    intro ops
    induction ops with
    | nil => intro o _ _ h1 h2 h3; exact ⟨o, rfl, rfl, h1, h2, h3⟩
    | cons x l ih =>
      intro o hn h0 h1 h2 h3
      cases x with
      | redshift z =>
        obtain ⟨o', a⟩ := ih (o.setRedshift e c z) hn h0 rfl rfl h3
        exact ⟨o', a⟩
      | sigma8 v =>
        have hs : setSigma8 o.plin v = .ok { o.plin with norm := o.plin.norm * (v / o.plin.sigma8) ^ 2, sigma8 := v } := by
          unfold setSigma8; rw [if_neg h0]
        obtain ⟨o', a1, a2, a3⟩ := ih { o with sigma8 := v, plin := { o.plin with norm := o.plin.norm * (v / o.plin.sigma8) ^ 2, sigma8 := v }, cache := c.setup (fn e { o.plin with norm := o.plin.norm * (v / o.plin.sigma8) ^ 2, sigma8 := v }) } hn.2 hn.1 rfl h2 rfl
        refine ⟨o', ?_, ?_, a3⟩
        · simp only [Zel.run, Zel.step, Zel.setSigma8, hs, bind, Except.bind, pure, Except.pure]; exact a1
        · simp only [run, step, hs, bind, Except.bind]; exact a2
  obtain ⟨o, a1, a2, a3, a4, a5⟩ := key ops (Zel.init e c kind z0) hz h8 rfl rfl rfl
  obtain ⟨p, b1, b2, b3, b4⟩ := linear_history_partial e kind z0 h8 ops hz
  have hp : (Zel.init e c kind z0).plin = init e kind z0 := rfl
  rw [hp, b1] at a2
  have hp : p = o.plin := by simpa using a2
  subst hp
  refine ⟨o, a1, a4.trans b2, a5.trans b3, ?_⟩
  intro k
  unfold Zel.call
  have hf : fn e o.plin = fun q => (o.sigma8 / e.sigma8) ^ 2 * fn e (init e kind o.z) q := by
    funext q
    unfold fn
    rw [b4, a4, a5]
  rw [a3, hf]

/-- A cosmology over the rationals for `zeldovich_stale`. -/
def exRat : Env ℚ :=
  { tilt := fun k => k, tiltH := fun k => k, h := 1, sqrt := fun x => x, pklin := fun _ k => k, pk := fun _ k => k, growth := fun z => 1 / (1 + z),
    eh := fun k => 1 / (1 + k), noWiggle := fun k => 1 / (1 + k), KMIN := 1, kmax := 10, kmin := 1, below := 1, above := 1, sigma8 := 4 / 5,
    sigmaR := fun P => P 1, trunc := fun x => x }

/-- Assigning to the redshift of the attribute `Plin` instead leaves the integrals as they were: the power is not that at the new
redshift. -/
theorem zeldovich_stale : ∃ (c : ZelEnv ℚ ℚ) (z k : ℚ), let o := Zel.init exRat c .EisensteinHu 0
    (Zel.call exRat c { o with plin := setRedshift o.plin z } k) ≠ (Zel.call exRat c (o.setRedshift exRat c z) k) :=
  ⟨{ setup := fun P => P 1, power := fun s P k => P k * (1 - s * k) }, 1, 1, by decide +kernel⟩

end

omit [IsStrictOrderedRing K] in
/-- **C82** for `HalofitPower` on floats: the nonlinear power, the linear one at the smallest wavenumbers, or an exception if a wavenumber is too
large. -/
theorem halofit_spec (e : Env K) (z : K) (ks : List K) (hne : ks ≠ []) :
    ((∃ k ∈ ks, e.kmax < k) → halofit e z false ks = .error .valueError) ∧
    ((∀ k ∈ ks, k ≤ e.kmax) → ∃ r, halofit e z false ks = .ok r ∧ r.length = ks.length ∧
      ∀ i (h : i < ks.length) (h' : i < r.length), (e.above * e.kmin < ks[i] → r[i] = e.pk z ks[i]) ∧
        (ks[i] ≤ e.above * e.kmin → r[i] = e.pklin z ks[i])) := by
  unfold halofit
  rw [if_neg hne]
  constructor
  · rintro ⟨k, hk, h⟩
    rw [if_pos]
    simp only [List.any_eq_true, gt_iff_lt, decide_eq_true_eq]
    exact ⟨k, hk, h⟩
  · intro h
    rw [if_neg]
    · refine ⟨_, rfl, by simp, ?_⟩
      intro i h1 h2
      simp only [List.getElem_map, Bool.false_eq_true, if_false, gt_iff_lt]
      exact ⟨fun h => by rw [if_pos h], fun h => by rw [if_neg (not_lt.mpr h)]⟩
    · simp only [List.any_eq_true, gt_iff_lt, decide_eq_true_eq, not_exists, not_and, not_lt]
      exact h

omit [IsStrictOrderedRing K] in
/-- **C82 fails** for integers: the power is truncated. -/
theorem halofit_integers (e : Env K) (z : K) (ks : List K) (hne : ks ≠ []) (h : ∀ k ∈ ks, k ≤ e.kmax) :
    ∃ r, halofit e z false ks = .ok r ∧ halofit e z true ks = .ok (r.map e.trunc) := by
  have hn : ¬ (ks.any fun k => decide (k > e.kmax)) = true := by
    simp only [List.any_eq_true, gt_iff_lt, decide_eq_true_eq, not_exists, not_and, not_lt]
    exact h
  refine ⟨ks.map fun k => if k > e.above * e.kmin then e.pk z k else e.pklin z k, ?_, ?_⟩
  · unfold halofit
    rw [if_neg hne, if_neg hn]
    simp
  · unfold halofit
    rw [if_neg hne, if_neg hn]
    simp

/-! ## A case -/

/-- A cosmology with simple formulas. -/
noncomputable def exEnv : Env ℝ :=
  { tilt := fun k => k, tiltH := fun k => k * (1 / 2), h := 1 / 2, sqrt := Real.sqrt, pklin := fun z k => k / (1 + k) ^ 2 / (1 + z ^ 2),
    pk := fun z k => 2 * k / (1 + k) ^ 2 / (1 + z ^ 2), growth := fun z => 1 / (1 + z ^ 2), eh := fun k => 1 / (1 + k), noWiggle := fun k => 1 / (1 + k),
    KMIN := 1 / 10 ^ 8, kmax := 10, kmin := 1 / 10 ^ 5, below := 99999 / 100000, above := 100001 / 100000, sigma8 := 4 / 5,
    sigmaR := fun P => Real.sqrt (P 1), trunc := fun x => (⌊x⌋ : ℝ) }

theorem exLawful : Lawful exEnv where
  sqrt := fun x hx => Real.sq_sqrt hx
  tilt := ⟨1 / 2, by norm_num, fun k _ => by simp [exEnv]; ring⟩
  tilt_pos := fun k hk => hk
  h := by norm_num [exEnv]
  pklin := fun z k hk => by
    have h1 : 0 < (1 + k) ^ 2 := by positivity
    have h2 : 0 < 1 + z ^ 2 := by positivity
    exact div_pos (div_pos hk h1) h2
  sigmaR := fun c P => by
    simp only [exEnv]
    by_cases h : 0 ≤ P 1
    · rw [Real.sq_sqrt (by positivity), Real.sq_sqrt h]
    · have h' : P 1 ≤ 0 := (not_le.mp h).le
      rw [Real.sqrt_eq_zero_of_nonpos h', Real.sqrt_eq_zero_of_nonpos (mul_nonpos_of_nonneg_of_nonpos (sq_nonneg c) h')]
      ring
  KMIN := by norm_num [exEnv]
  sigma8 := by norm_num [exEnv]

/-- The hypotheses of `linear_sigma8` are met: the fluctuations do not vanish. -/
theorem exFluctuates : Fluctuates exEnv .EisensteinHu := by
  unfold Fluctuates
  have : fn exEnv { kind := .EisensteinHu, norm := 1, sigma8 := exEnv.sigma8, z := 0, transferZ := 0, fallbackZ := 0 } 1 = 1 / 4 := by
    unfold fn call transferCall ehCall exEnv
    norm_num
  simp only [exEnv] at this ⊢
  rw [this]
  exact Real.sqrt_ne_zero'.mpr (by norm_num)

example : NonZero ([.redshift 1, .sigma8 (9 / 10), .redshift 2] : List (Op ℝ)) := ⟨by norm_num, trivial⟩

/-- The hypotheses of `class_beyond` are met. -/
example : exEnv.below < 1 ∧ 0 < exEnv.kmax ∧ (∀ k, 0 < k → 0 < exEnv.eh k) ∧ ∀ z, 0 < exEnv.growth z := by
  refine ⟨by norm_num [exEnv], by norm_num [exEnv], fun k hk => ?_, fun z => ?_⟩
  · simp only [exEnv]; positivity
  · simp only [exEnv]; positivity

/-- The hypotheses of `class_integers` are met: a power that vanishes at the integer 1, but not at the float 1. -/
example : (∀ x, 0 ≤ x → x < 1 → exEnv.trunc x = 0) ∧
    (let v := call exEnv { kind := .CLASS, norm := 1, sigma8 := 4 / 5, z := 0, transferZ := 0, fallbackZ := 0 } false false 1; 0 < v ∧ v < 1) := by
  refine ⟨fun x h0 h1 => ?_, ?_⟩
  · have : ⌊x⌋ = 0 := Int.floor_eq_zero_iff.mpr ⟨h0, h1⟩
    simp [exEnv, this]
  · have hin : (1 : ℝ) < exEnv.below * exEnv.kmax := by norm_num [exEnv]
    have hv : call exEnv { kind := .CLASS, norm := 1, sigma8 := 4 / 5, z := 0, transferZ := 0, fallbackZ := 0 } false false 1 =
        exEnv.tilt 1 * classCall exEnv (classNorm exEnv) 0 1 ^ 2 := by
      unfold call
      simp only [if_pos hin, transferCall, Bool.false_eq_true, if_false, one_mul]
    dsimp only
    rw [hv]
    have h1 : classCall exEnv 1 0 exEnv.KMIN ^ 2 * exEnv.tilt exEnv.KMIN = 16 * exEnv.pklin 0 exEnv.KMIN := by
      have : 0 ≤ exEnv.pklin 0 exEnv.KMIN / exEnv.h ^ 3 / exEnv.tiltH exEnv.KMIN := by norm_num [exEnv]
      have h2 : classCall exEnv 1 0 exEnv.KMIN ^ 2 = exEnv.pklin 0 exEnv.KMIN / exEnv.h ^ 3 / exEnv.tiltH exEnv.KMIN := by
        unfold classCall
        rw [if_pos exLawful.KMIN, one_mul]
        exact exLawful.sqrt _ this
      rw [h2]
      norm_num [exEnv]
    have h2 : classCall exEnv 1 0 1 ^ 2 = 4 := by
      unfold classCall
      rw [if_pos one_pos, one_mul, exLawful.sqrt _ (by norm_num [exEnv])]
      norm_num [exEnv]
    have h3 : classCall exEnv (classNorm exEnv) 0 1 ^ 2 = classNorm exEnv ^ 2 * 4 := by
      rw [← h2]
      unfold classCall
      rw [if_pos one_pos, if_pos one_pos]
      ring
    have h4 : classNorm exEnv ^ 2 = (1 + 1 / 10 ^ 8) ^ 2 / 16 := by
      have h5 : classCall exEnv 1 0 exEnv.KMIN ^ 2 = 16 / (1 + 1 / 10 ^ 8) ^ 2 := by
        have : exEnv.tilt exEnv.KMIN = 1 / 10 ^ 8 := rfl
        have h6 : exEnv.pklin 0 exEnv.KMIN = 1 / 10 ^ 8 / (1 + 1 / 10 ^ 8) ^ 2 / (1 + 0 ^ 2) := rfl
        rw [this, h6] at h1
        linear_combination 10 ^ 8 * h1
      unfold classNorm
      rw [div_pow, h5]
      norm_num
    rw [h3, h4]
    norm_num [exEnv]

/-- The hypotheses of `halofit_spec` and `halofit_integers` are met. -/
example : ([1, 2] : List ℝ) ≠ [] ∧ ∀ k ∈ ([1, 2] : List ℝ), k ≤ exEnv.kmax := by
  refine ⟨by simp, ?_⟩
  intro k hk
  simp only [List.mem_cons, List.not_mem_nil, or_false] at hk
  rcases hk with rfl | rfl <;> norm_num [exEnv]

/-- The power on an array at wavenumber zero keeps the growth, for both fitting formulas (a number, instead, loses it: `eh_zero`). -/
theorem fn_zero (e : Env K) (o : Lin K) (h : o.kind ≠ .CLASS) : fn e o 0 = o.norm * (e.tilt 0 * e.growth o.transferZ ^ 2) := by
  unfold fn call transferCall ehCall
  cases hk : o.kind with
  | CLASS => exact absurd hk h
  | EisensteinHu => simp
  | NoWiggleEisensteinHu => simp

end NBK.Power
