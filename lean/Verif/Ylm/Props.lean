import Verif.Ylm.Lemmas
import Verif.Convpower.Props
import Verif.Tpcf.Props
import Mathlib.Analysis.SpecialFunctions.Trigonometric.Basic

set_option linter.unusedSimpArgs false
/-!
# C101: the spherical harmonics
-/
noncomputable section
namespace NBK.Ylm
open Polynomial

/-! ## Legendre polynomials -/

/-- Legendre's differential equation. -/
theorem legendre_ode (l : Nat) (x : ℝ) :
    (1 - x ^ 2) * (derivative (derivative (legendre l))).eval x - 2 * x * (derivative (legendre l)).eval x +
      l * (l + 1) * (legendre l).eval x = 0 := by
  have h := d_R3 l 0 x
  simp only [d, dleg, Function.iterate_succ_apply, Function.iterate_zero, id] at h
  push_cast at h
  linear_combination h

/-- The normalisation of the Legendre polynomials. -/
theorem legendre_one (l : Nat) : (legendre l).eval 1 = 1 := by
  induction l using Nat.twoStepInduction with
  | zero => simp [legendre]
  | one => simp [legendre]
  | more l h1 h2 =>
    have hr := congrArg (eval 1) (legendre_rec l)
    simp only [eval_mul, eval_sub, eval_C, eval_X, h1, h2] at hr
    have hpos : ((l : ℝ) + 2) ≠ 0 := by positivity
    apply mul_left_cancel₀ hpos
    linear_combination hr

/-! ## The expressions before and after the simplification -/

theorem cx_pow (s φ : ℝ) (m : Nat) :
    (⟨s * Real.cos φ, s * Real.sin φ⟩ : ℂ) ^ m = ⟨s ^ m * Real.cos (m * φ), s ^ m * Real.sin (m * φ)⟩ := by
  induction m with
  | zero => apply Complex.ext <;> simp
  | succ m ih =>
    rw [pow_succ, ih]
    have : ((m + 1 : Nat) : ℝ) * φ = m * φ + φ := by push_cast; ring
    rw [this, Real.cos_add, Real.sin_add]
    apply Complex.ext <;> simp only [Complex.mul_re, Complex.mul_im] <;> ring

theorem neg_one_sq (m : Nat) : ((-1 : ℝ) ^ m) * (-1) ^ m = 1 := by rw [← mul_pow]; simp

/-- The polynomial of the unit vector is the harmonic of its angles: the two phases cancel. -/
theorem realYlm_angles (l : Nat) (m : Int) (θ φ : ℝ) (h0 : 0 ≤ θ) (hπ : θ ≤ Real.pi) :
    realYlm l m (Real.sin θ * Real.cos φ) (Real.sin θ * Real.sin φ) (Real.cos θ) = realYlmAngles l m θ φ := by
  have hs : Real.sqrt (1 - Real.cos θ ^ 2) = Real.sin θ := by
    rw [← Real.sin_sq]
    exact Real.sqrt_sq (Real.sin_nonneg_of_nonneg_of_le_pi h0 hπ)
  unfold realYlm realYlmAngles assocLegendre
  rw [cx_pow, hs]
  congr 1
  have h1 := neg_one_sq m.natAbs
  rcases lt_trichotomy m 0 with h | h | h
  · simp only [if_pos h]
    linear_combination -(Real.sin θ ^ m.natAbs * (dleg l m.natAbs).eval (Real.cos θ) * Real.sin (m.natAbs * φ)) * h1
  · subst h
    simp
  · simp only [if_neg (not_lt.2 h.le), if_pos h]
    have hc : ((m.natAbs : Nat) : ℝ) = (m : ℝ) := by
      rw [← Int.cast_natCast, Int.natAbs_of_nonneg h.le]
    rw [hc]
    linear_combination -(Real.sin θ ^ m.natAbs * (dleg l m.natAbs).eval (Real.cos θ) * Real.cos (m * φ)) * h1

theorem complexYlm_angles (l m : Nat) (θ φ : ℝ) (h0 : 0 ≤ θ) (hπ : θ ≤ Real.pi) :
    complexYlm l m (Real.sin θ * Real.cos φ) (Real.sin θ * Real.sin φ) (Real.cos θ) = complexYlmAngles l m θ φ := by
  have hs : Real.sqrt (1 - Real.cos θ ^ 2) = Real.sin θ := by
    rw [← Real.sin_sq]
    exact Real.sqrt_sq (Real.sin_nonneg_of_nonneg_of_le_pi h0 hπ)
  unfold complexYlm complexYlmAngles assocLegendre
  rw [cx_pow, hs]
  have h1 := neg_one_sq m
  apply Complex.ext
  all_goals
    simp only [Complex.re_ofReal_mul, Complex.im_ofReal_mul, Complex.add_re, Complex.add_im, Complex.ofReal_re, Complex.ofReal_im,
      Complex.mul_re, Complex.mul_im, Complex.I_re, Complex.I_im]
    ring

/-! ## The addition theorem -/

/-- Unit vectors. -/
def Unit3 (x y z : ℝ) : Prop := x ^ 2 + y ^ 2 + z ^ 2 = 1

/-- Powers of the product of the transverse parts. -/
theorem cx_rec (ζ : ℂ) (m : Nat) : (ζ ^ 1).re * (ζ ^ (m + 1)).re = ((ζ ^ (m + 2)).re + Complex.normSq ζ * (ζ ^ m).re) / 2 := by
  rw [pow_one, show ζ ^ (m + 2) = ζ ^ m * ζ * ζ by ring, pow_succ]
  simp only [Complex.mul_re, Complex.mul_im, Complex.normSq_apply]
  ring

/-- The sum of the products of the transverse parts. -/
def tr (x y x' y' : ℝ) (m : Nat) : ℝ := (((⟨x, y⟩ : ℂ) * ⟨x', -y'⟩) ^ m).re

theorem tr_eq (x y x' y' : ℝ) (m : Nat) :
    tr x y x' y' m = ((⟨x, y⟩ : ℂ) ^ m).re * ((⟨x', y'⟩ : ℂ) ^ m).re + ((⟨x, y⟩ : ℂ) ^ m).im * ((⟨x', y'⟩ : ℂ) ^ m).im := by
  have hc : (⟨x', -y'⟩ : ℂ) ^ m = (starRingEnd ℂ) ((⟨x', y'⟩ : ℂ) ^ m) := by
    rw [map_pow]; rfl
  unfold tr
  rw [mul_pow, hc]
  simp only [Complex.mul_re, Complex.conj_re, Complex.conj_im]
  ring

/-- The addition theorem in terms of the derivatives. -/
theorem addition_real (l : Nat) {x y z x' y' z' : ℝ} (h : Unit3 x y z) (h' : Unit3 x' y' z') :
    (legendre l).eval (x * x' + y * y' + z * z') =
      ∑ m ∈ Finset.range (l + 1), e m * (c l m * (dleg l m).eval z * (dleg l m).eval z') * tr x y x' y' m := by
  have key := legendre_addition z z' (tr x y x' y') (by simp [tr]) (fun m => by
    unfold tr
    rw [cx_rec]
    congr 2
    rw [Complex.normSq_mul]
    simp only [Complex.normSq_apply]
    unfold Unit3 at h h'
    have e1 : x * x + y * y = 1 - z ^ 2 := by linear_combination h
    have e2 : x' * x' + -y' * -y' = 1 - z' ^ 2 := by linear_combination h'
    rw [e1, e2]) (l + 1) l (Nat.lt_succ_self l)
  rw [Finset.sum_range_succ, g_big l (l + 1) (by omega)] at key
  have ht : tr x y x' y' 1 = x * x' + y * y' := by simp [tr]
  rw [ht] at key
  have e3 : x * x' + y * y' + z * z' = z * z' + (x * x' + y * y') := by ring
  rw [e3, key]
  simp [g, d]

theorem sum_symm (l : Nat) (f : Int → ℝ) :
    ((List.range (2 * l + 1)).map fun (i : Nat) => f ((i : Int) - l)).sum =
      f 0 + ∑ m ∈ Finset.range l, (f (m + 1) + f (-(m + 1))) := by
  induction l generalizing f with
  | zero => simp
  | succ l ih =>
    rw [show 2 * (l + 1) + 1 = (2 * l + 1) + 1 + 1 by ring, List.range_succ, List.map_append, List.sum_append, List.range_succ_eq_map,
      List.map_cons, List.sum_cons, List.map_map]
    have hmap : ((fun i : Nat => f ((i : Int) - (l + 1 : Nat))) ∘ Nat.succ) = fun i : Nat => f ((i : Int) - l) := by
      funext i
      simp only [Function.comp_apply]
      congr 1
      push_cast
      omega
    rw [hmap, ih f, Finset.sum_range_succ]
    simp only [List.map_cons, List.map_nil, List.sum_cons, List.sum_nil, add_zero]
    have e1 : ((0 : Nat) : Int) - ((l + 1 : Nat) : Int) = -((l : Int) + 1) := by push_cast; ring
    have e2 : ((2 * l + 1 + 1 : Nat) : Int) - ((l + 1 : Nat) : Int) = (l : Int) + 1 := by push_cast; ring
    rw [e1, e2]
    ring

theorem amp_zero_sq (l : Nat) : amp l 0 * amp l 0 = (2 * l + 1) / (4 * Real.pi) := by
  unfold amp
  rw [if_pos rfl, Real.mul_self_sqrt]
  have := Real.pi_pos
  positivity

theorem amp_sq (l : Nat) (m : Int) (hm : m ≠ 0) : amp l m * amp l m = (2 * l + 1) / (4 * Real.pi) * (2 * c l m.natAbs) := by
  unfold amp c
  have := Real.pi_pos
  rw [if_neg hm, Real.mul_self_sqrt (by positivity)]
  ring

/-- C101: the addition theorem for the real harmonics of `ConvolvedFFTPower`, for every degree. -/
theorem real_addition (l : Nat) {x y z x' y' z' : ℝ} (h : Unit3 x y z) (h' : Unit3 x' y' z') :
    (List.zipWith (· * ·) (realYlms l x y z) (realYlms l x' y' z')).sum =
      (2 * l + 1) / (4 * Real.pi) * (legendre l).eval (x * x' + y * y' + z * z') := by
  have hz : List.zipWith (· * ·) (realYlms l x y z) (realYlms l x' y' z') =
      (List.range (2 * l + 1)).map fun (i : Nat) => (fun m : Int => realYlm l m x y z * realYlm l m x' y' z') ((i : Int) - l) := by
    unfold realYlms
    rw [List.zipWith_map, List.zipWith_self]
  rw [hz, sum_symm l (fun m : Int => realYlm l m x y z * realYlm l m x' y' z'), addition_real l h h', Finset.sum_range_succ', mul_add, add_comm,
    Finset.mul_sum]
  congr 1
  · apply Finset.sum_congr rfl
    intro m _
    have hp : ¬ ((m : Int) + 1 < 0) := by omega
    have hn : -((m : Int) + 1) < 0 := by omega
    have n1 : ((m : Int) + 1).natAbs = m + 1 := by omega
    have n2 : (-((m : Int) + 1)).natAbs = m + 1 := by omega
    have a1 := amp_sq l ((m : Int) + 1) (by omega)
    have a2 := amp_sq l (-((m : Int) + 1)) (by omega)
    simp only [realYlm, if_neg hp, if_pos hn, n1, n2] at a1 a2 ⊢
    have e2 : e (m + 1) = 2 := by simp [e]
    rw [tr_eq, e2]
    linear_combination ((dleg l (m + 1)).eval z * (dleg l (m + 1)).eval z' * (((⟨x, y⟩ : ℂ) ^ (m + 1)).re * ((⟨x', y'⟩ : ℂ) ^ (m + 1)).re)) * a1 +
      ((dleg l (m + 1)).eval z * (dleg l (m + 1)).eval z' * (((⟨x, y⟩ : ℂ) ^ (m + 1)).im * ((⟨x', y'⟩ : ℂ) ^ (m + 1)).im)) * a2
  · have a0 := amp_zero_sq l
    have hc : c l 0 = 1 := by
      unfold c
      simp only [Nat.sub_zero, Nat.add_zero]
      exact div_self (fact_pos l).ne'
    simp only [realYlm, e, tr, hc]
    simp
    linear_combination ((dleg l 0).eval z * (dleg l 0).eval z') * a0

/-- The sum of the squares of the harmonics of a degree is the same in all directions. -/
theorem real_sum_sq (l : Nat) {x y z : ℝ} (h : Unit3 x y z) :
    ((realYlms l x y z).map (· ^ 2)).sum = (2 * l + 1) / (4 * Real.pi) := by
  have := real_addition l h h
  rw [show x * x + y * y + z * z = 1 by unfold Unit3 at h; linear_combination h, legendre_one, mul_one] at this
  rw [← this, List.zipWith_self]
  congr 1
  apply List.map_congr_left
  intro a _
  ring

/-- C101: the addition theorem for the complex harmonics of the three-point function; the terms of negative `m` are the
conjugates. -/
theorem complex_addition (l : Nat) {x y z x' y' z' : ℝ} (h : Unit3 x y z) (h' : Unit3 x' y' z') :
    ((List.range (l + 1)).map fun m =>
      if m = 0 then (complexYlm l m x y z).re * (complexYlm l m x' y' z').re
      else 2 * ((complexYlm l m x y z).re * (complexYlm l m x' y' z').re + (complexYlm l m x y z).im * (complexYlm l m x' y' z').im)).sum =
      (2 * l + 1) / (4 * Real.pi) * (legendre l).eval (x * x' + y * y' + z * z') := by
  rw [addition_real l h h', Finset.mul_sum, ← List.sum_toFinset _ List.nodup_range, List.toFinset_range]
  apply Finset.sum_congr rfl
  intro m _
  have ha : ampC l m * ampC l m = (2 * l + 1) / (4 * Real.pi) * c l m := by
    unfold ampC c
    have := Real.pi_pos
    rw [Real.mul_self_sqrt (by positivity)]
    ring
  have h1 := neg_one_sq m
  by_cases hm : m = 0
  · subst hm
    simp only [if_true, complexYlm, e, tr]
    simp
    linear_combination ((dleg l 0).eval z * (dleg l 0).eval z') * ha
  · simp only [if_neg hm, complexYlm, e, tr_eq, Complex.re_ofReal_mul, Complex.im_ofReal_mul]
    generalize ((⟨x, y⟩ : ℂ) ^ m).re = r1
    generalize ((⟨x, y⟩ : ℂ) ^ m).im = i1
    generalize ((⟨x', y'⟩ : ℂ) ^ m).re = r2
    generalize ((⟨x', y'⟩ : ℂ) ^ m).im = i2
    linear_combination (2 * ((-1) ^ m * (-1) ^ m) * (dleg l m).eval z * (dleg l m).eval z' * (r1 * r2 + i1 * i2)) * ha +
      (2 * ((2 * l + 1) / (4 * Real.pi) * c l m) * (dleg l m).eval z * (dleg l m).eval z' * (r1 * r2 + i1 * i2)) * h1

/-! ## Parity -/

theorem d_neg (l m : Nat) (x : ℝ) : d l m (-x) = (-1) ^ (l + m) * d l m x := by
  induction l generalizing m with
  | zero =>
    cases m with
    | zero => simp [d, dleg, legendre]
    | succ m => rw [d_zero_one, d_zero_one]; ring
  | succ l ih =>
    cases m with
    | zero =>
      have h1 := d_R1 l 0 (-x)
      have h2 := d_R1 l 0 x
      rw [ih, ih] at h1
      have hpos : ((l : ℝ) + 1) ≠ 0 := by positivity
      apply mul_left_cancel₀ hpos
      simp only [Nat.cast_zero, add_zero, sub_zero, Nat.add_zero, zero_add] at h1 h2 ⊢
      rw [h1]
      have e1 : (-1 : ℝ) ^ (l + 1) = -(-1) ^ l := by rw [pow_succ]; ring
      rw [e1]
      linear_combination (-1) ^ l * h2
    | succ m =>
      rw [d_A, d_A, ih, ih]
      rw [show l + 1 + (m + 1) = (l + m) + 2 by ring, show l + (m + 1) = (l + m) + 1 by ring, pow_add, pow_succ]
      ring

/-- The harmonics of opposite directions: even for even degrees, odd for odd ones. -/
theorem real_parity (l : Nat) (m : Int) (x y z : ℝ) : realYlm l m (-x) (-y) (-z) = (-1) ^ l * realYlm l m x y z := by
  have hd := d_neg l m.natAbs z
  unfold d at hd
  have hc : (⟨-x, -y⟩ : ℂ) ^ m.natAbs = ((-1 : ℝ) ^ m.natAbs : ℝ) * (⟨x, y⟩ : ℂ) ^ m.natAbs := by
    have : (⟨-x, -y⟩ : ℂ) = (-1) * ⟨x, y⟩ := by apply Complex.ext <;> simp
    rw [this, mul_pow]
    push_cast
    rfl
  unfold realYlm
  rw [hd, hc, Complex.re_ofReal_mul, Complex.im_ofReal_mul, pow_add]
  have h1 := neg_one_sq m.natAbs
  split
  · linear_combination (amp l m * (-1) ^ l * (dleg l m.natAbs).eval z * ((⟨x, y⟩ : ℂ) ^ m.natAbs).im) * h1
  · linear_combination (amp l m * (-1) ^ l * (dleg l m.natAbs).eval z * ((⟨x, y⟩ : ℂ) ^ m.natAbs).re) * h1

/-! ## The multipoles of a survey -/

theorem norm_sq (v : V3) : v.norm ^ 2 = v.x ^ 2 + v.y ^ 2 + v.z ^ 2 := Real.sq_sqrt (by positivity)

theorem unit_div (v : V3) (h : v.norm ≠ 0) : Unit3 (v.x / v.norm) (v.y / v.norm) (v.z / v.norm) := by
  unfold Unit3
  have := norm_sq v
  field_simp
  linarith

/-- The cosine of the angle between two vectors. -/
def cosAngle (u v : V3) : ℝ := (u.x * v.x + u.y * v.y + u.z * v.z) / (u.norm * v.norm)

/-- C101, C73: with the harmonics of the code, `A_ell` of a mode `k` is `(2 ell + 1) V` times the transform of the field
weighted with the Legendre polynomial of the cosine between mode and position of the cell, for every degree, provided that no
cell is at the observer. -/
theorem yamamoto_legendre {n : Nat} {β γ δ : Type} (env : Convpower.Env n ℂ β γ δ) (X Kv : Fin n → V3) (xh : Fin n → V3)
    (hx : ∀ i, xhat (X i) = some (xh i))
    (hY : ∀ l, env.ylms l = (List.range (2 * l + 1)).map fun (i : Nat) =>
      (fun c => ((realYlm l ((i : Int) - l) (xh c).x (xh c).y (xh c).z : ℝ) : ℂ),
       fun k => ((realYlm l ((i : Int) - l) (khat (Kv k)).x (khat (Kv k)).y (khat (Kv k)).z : ℝ) : ℂ)))
    (hpi : env.fourPi = (4 * Real.pi : ℝ)) (ph : Fin n → Fin n → ℂ) (hr : ∀ f k, env.r2c f k = ∑ x, ph k x * f x)
    (ell : Nat) (hell : ell ≠ 0) (k : Fin n) (hk : (Kv k).norm ≠ 0) (F : Fin n → ℂ) :
    Convpower.A env F ell k = (2 * ell + 1) * env.volume * Convpower.factor env.comp2 k *
      ∑ x, ph k x * (((legendre ell).eval (cosAngle (Kv k) (X x)) : ℝ) * F x) := by
  refine Convpower.yamamoto env ph hr (fun l k x => (((legendre l).eval (cosAngle (Kv k) (X x)) : ℝ) : ℂ)) ell hell k ?_ F
  intro c
  have hn : (X c).norm ≠ 0 := by
    intro h
    have := hx c
    unfold xhat at this
    rw [if_pos h] at this
    cases this
  have hxc : xh c = ⟨(X c).x / (X c).norm, (X c).y / (X c).norm, (X c).z / (X c).norm⟩ := by
    have := hx c
    unfold xhat at this
    rw [if_neg hn] at this
    exact (Option.some.inj this).symm
  have hkc : khat (Kv k) = ⟨(Kv k).x / (Kv k).norm, (Kv k).y / (Kv k).norm, (Kv k).z / (Kv k).norm⟩ := by
    unfold khat; rw [if_neg hk]
  have key := real_addition ell (unit_div (Kv k) hk) (unit_div (X c) hn)
  have hcos : (Kv k).x / (Kv k).norm * ((X c).x / (X c).norm) + (Kv k).y / (Kv k).norm * ((X c).y / (X c).norm) +
      (Kv k).z / (Kv k).norm * ((X c).z / (X c).norm) = cosAngle (Kv k) (X c) := by
    unfold cosAngle; field_simp
  rw [hcos] at key
  rw [hpi, hY, List.map_map]
  have hsum : ∀ (l : List Nat) (f g : Nat → ℝ), (l.map fun i => ((f i : ℝ) : ℂ) * ((g i : ℝ) : ℂ)).sum =
      (((l.map fun i => f i * g i).sum : ℝ) : ℂ) := by
    intro l f g
    induction l with
    | nil => simp
    | cons a l ih => simp only [List.map_cons, List.sum_cons, ih]; push_cast; rfl
  simp only [Function.comp_def]
  rw [hsum, hkc, hxc]
  have hz : (List.zipWith (· * ·) (realYlms ell ((Kv k).x / (Kv k).norm) ((Kv k).y / (Kv k).norm) ((Kv k).z / (Kv k).norm))
      (realYlms ell ((X c).x / (X c).norm) ((X c).y / (X c).norm) ((X c).z / (X c).norm))) =
      (List.range (2 * ell + 1)).map fun (i : Nat) =>
        realYlm ell ((i : Int) - ell) ((Kv k).x / (Kv k).norm) ((Kv k).y / (Kv k).norm) ((Kv k).z / (Kv k).norm) *
        realYlm ell ((i : Int) - ell) ((X c).x / (X c).norm) ((X c).y / (X c).norm) ((X c).z / (X c).norm) := by
    unfold realYlms
    rw [List.zipWith_map, List.zipWith_self]
  rw [hz] at key
  simp only
  rw [key]
  have := Real.pi_pos.ne'
  push_cast
  have hpc : (Real.pi : ℂ) ≠ 0 := by exact_mod_cast this
  field_simp

/-- C101 fails for an observer at the centre of a cell, which is not excluded: the direction of the cell is nan. -/
theorem observer_cell (box : ℝ) (n : Nat) (hn : 0 < n) :
    let center := -(0.5 * box / n)
    xhat ⟨cellCoord center box n 0, cellCoord center box n 0, cellCoord center box n 0⟩ = none := by
  intro center
  have h : cellCoord center box n 0 = 0 := by
    unfold cellCoord
    rw [if_pos (by omega)]
    simp [center]
  rw [h]
  unfold xhat
  rw [if_pos]
  simp [V3.norm]

/-! ## The three-point function -/

/-- The harmonics and distances of the three-point function. -/
def tpcfEnv (box : Option (Tpcf.Vec ℝ)) (edges : List ℝ) : Tpcf.Env ℝ where
  len v := Real.sqrt (v.x ^ 2 + v.y ^ 2 + v.z ^ 2)
  Y l m v := ⟨(complexYlm l m v.x v.y v.z).re, (complexYlm l m v.x v.y v.z).im⟩
  fourPi := 4 * Real.pi
  box := box
  edges := edges

/-- C101, C80: the multipoles of the three-point function with the harmonics of the code, for every degree: no assumption on
them is left. -/
theorem tpcf_legendre (box : Option (Tpcf.Vec ℝ)) (edges : List ℝ) (hs : edges.Pairwise (· < ·)) (poles : List Nat)
    (hne : poles ≠ []) (hn : poles.Nodup) (sec : List (Tpcf.Obj ℝ)) (parts : List (Tpcf.Part ℝ))
    (hload : Tpcf.maxLoad parts = 0 ∨ 10 ≤ Tpcf.maxLoad parts)
    (hc : ∀ q ∈ parts, ∀ p ∈ q.prim, Tpcf.Complete (tpcfEnv box edges) sec q.bunches p) :
    ∃ res, Tpcf.run (tpcfEnv box edges) poles parts = .ok res ∧ res.map (·.1) = poles ∧
      ∀ x ∈ res, ∀ b1 b2, b1 + 1 < edges.length → b2 + 1 < edges.length →
        (4 * Real.pi) ^ 2 * x.2 b1 b2 = (2 * x.1 + 1) *
          Tpcf.triangles (tpcfEnv box edges) (fun u v => (legendre x.1).eval (u.x * v.x + u.y * v.y + u.z * v.z))
            (parts.flatMap (·.prim)) sec b1 b2 := by
  have hpi := Real.pi_pos
  refine Tpcf.tpcf_partial (tpcfEnv box edges) hs (by simp only [tpcfEnv]; positivity)
    (fun l u v => (legendre l).eval (u.x * v.x + u.y * v.y + u.z * v.z)) poles hne hn sec parts hload hc ?_
  intro l _ q _ p _ j _ k _ hj hk
  have hunit : ∀ s : Tpcf.Obj ℝ, 0 < Tpcf.sep (tpcfEnv box edges) p s →
      Unit3 (Tpcf.dir (tpcfEnv box edges) p s).x (Tpcf.dir (tpcfEnv box edges) p s).y (Tpcf.dir (tpcfEnv box edges) p s).z := by
    intro s h
    unfold Unit3 Tpcf.dir
    simp only
    have hsq : Tpcf.sep (tpcfEnv box edges) p s ^ 2 =
        (Tpcf.dposOf (tpcfEnv box edges).box p s).x ^ 2 + (Tpcf.dposOf (tpcfEnv box edges).box p s).y ^ 2 +
          (Tpcf.dposOf (tpcfEnv box edges).box p s).z ^ 2 := Real.sq_sqrt (by positivity)
    field_simp
    linarith
  have key := complex_addition l (hunit j hj) (hunit k hk)
  unfold Tpcf.AdditionTheorem
  simp only [tpcfEnv] at key ⊢
  rw [key]
  field_simp

/-! ## Cases -/

theorem legendre_two (x : ℝ) : (legendre 2).eval x = (3 * x ^ 2 - 1) / 2 := by
  simp [legendre]; ring

/-- The quadrupole in the direction of z. -/
theorem real_addition_case : Unit3 0 0 1 ∧ Unit3 (3 / 5) 0 (4 / 5) ∧
    (List.zipWith (· * ·) (realYlms 2 0 0 1) (realYlms 2 (3 / 5) 0 (4 / 5))).sum = 5 / (4 * Real.pi) * (23 / 50) := by
  have h1 : Unit3 0 0 1 := by simp [Unit3]
  have h2 : Unit3 (3 / 5) 0 (4 / 5) := by unfold Unit3; norm_num
  refine ⟨h1, h2, ?_⟩
  rw [real_addition 2 h1 h2, legendre_two]
  norm_num

/-- A case of `tpcf_legendre`: ten primaries and two secondaries in an open box, all multipoles up to the quadrupole. -/
theorem tpcf_case : ∃ res, Tpcf.run (tpcfEnv none [0, 1, 3]) [0, 1, 2]
    [⟨List.replicate 10 ⟨⟨0, 0, 0⟩, 1⟩, fun p => [([⟨⟨1, 0, 0⟩, 2⟩, ⟨⟨0, 2, 0⟩, 3⟩] : List (Tpcf.Obj ℝ)).filter fun s =>
      Tpcf.sep (tpcfEnv none [0, 1, 3]) p s ≤ [0, 1, 3].foldl max 0]⟩] = .ok res ∧ res.map (·.1) = [0, 1, 2] := by
  obtain ⟨res, h, h1, _⟩ := tpcf_legendre none [0, 1, 3] (by simp) [0, 1, 2] (by simp) (by decide)
    [⟨⟨1, 0, 0⟩, 2⟩, ⟨⟨0, 2, 0⟩, 3⟩]
    [⟨List.replicate 10 ⟨⟨0, 0, 0⟩, 1⟩, fun p => [([⟨⟨1, 0, 0⟩, 2⟩, ⟨⟨0, 2, 0⟩, 3⟩] : List (Tpcf.Obj ℝ)).filter fun s =>
      Tpcf.sep (tpcfEnv none [0, 1, 3]) p s ≤ [0, 1, 3].foldl max 0]⟩]
    (.inr (by simp [Tpcf.maxLoad])) (by
      intro q hq p _
      rw [List.mem_singleton.1 hq]
      unfold Tpcf.Complete
      simp only [List.flatten_cons, List.flatten_nil, List.append_nil]
      exact .refl _)
  exact ⟨res, h, h1⟩

/-- A case of `yamamoto_legendre`: one cell and one mode. -/
def caseEnv : Convpower.Env 1 ℂ Unit Unit Unit where
  field1 _ := 1
  field2 _ := 1
  r2c f := f
  conj := star
  comp1 := none
  comp2 := none
  ylms l := (List.range (2 * l + 1)).map fun (i : Nat) =>
    (fun _ => ((realYlm l ((i : Int) - l) (3 / 5) 0 (4 / 5) : ℝ) : ℂ), fun _ => ((realYlm l ((i : Int) - l) 0 0 1 : ℝ) : ℂ))
  volume := 1
  fourPi := (4 * Real.pi : ℝ)
  norm := 1
  projK := ()
  projP _ := ()
  projN := ()

theorem yamamoto_case (ell : Nat) (hell : ell ≠ 0) :
    Convpower.A caseEnv (fun _ => 1) ell 0 = (2 * ell + 1) * (((legendre ell).eval (4 / 5) : ℝ) : ℂ) := by
  have n1 : V3.norm ⟨3, 0, 4⟩ = 5 := by
    unfold V3.norm
    rw [show (3 : ℝ) ^ 2 + 0 ^ 2 + 4 ^ 2 = 5 ^ 2 by norm_num]
    exact Real.sqrt_sq (by norm_num)
  have n2 : V3.norm ⟨0, 0, 2⟩ = 2 := by
    unfold V3.norm
    rw [show (0 : ℝ) ^ 2 + 0 ^ 2 + 2 ^ 2 = 2 ^ 2 by norm_num]
    exact Real.sqrt_sq (by norm_num)
  have hk : khat ⟨0, 0, 2⟩ = ⟨0, 0, 1⟩ := by
    unfold khat
    rw [n2, if_neg (by norm_num)]
    norm_num
  have key := yamamoto_legendre caseEnv (fun _ => ⟨3, 0, 4⟩) (fun _ => ⟨0, 0, 2⟩) (fun _ => ⟨3 / 5, 0, 4 / 5⟩)
    (by
      intro i
      unfold xhat
      simp only [n1]
      rw [if_neg (by norm_num)]
      norm_num)
    (by intro l; simp only [hk]; rfl) rfl (fun _ _ => 1) (by intro f k; simp [caseEnv, Subsingleton.elim k 0]) ell hell 0
    (by rw [n2]; norm_num) (fun _ => 1)
  rw [key]
  have hc : cosAngle ⟨0, 0, 2⟩ ⟨3, 0, 4⟩ = 4 / 5 := by
    unfold cosAngle
    rw [n1, n2]; norm_num
  simp only [hc]
  simp [caseEnv, Convpower.factor]

end NBK.Ylm
