import Verif.ProjPower.Props
import Mathlib.Algebra.Ring.GeomSum
import Mathlib.Algebra.BigOperators.Intervals

/-! C90: bins, symmetries and units of the projected power. -/

set_option linter.unusedSimpArgs false

namespace NBK.ProjPower

open scoped ComplexConjugate
open Hermitian (neg)

/-! ## Sums over cells -/

theorem sum_rolled {M : Type} [AddCommMonoid M] (n a : ℕ) (F : ℕ → M) : ∑ x ∈ Finset.range n, F ((x + a) % n) = ∑ x ∈ Finset.range n, F x := by
  rcases Nat.eq_zero_or_pos n with rfl | hn
  · simp
  refine Finset.sum_nbij' (fun x => (x + a) % n) (fun x => (x + (n - a % n)) % n) (fun x hx => ?_) (fun x hx => ?_) (fun x hx => ?_) (fun x hx => ?_) (fun x _ => rfl)
  · exact Finset.mem_range.mpr (Nat.mod_lt _ hn)
  · exact Finset.mem_range.mpr (Nat.mod_lt _ hn)
  · have hx' := Finset.mem_range.mp hx
    have ha := Nat.mod_lt a hn
    show ((x + a) % n + (n - a % n)) % n = x
    rw [Nat.mod_add_mod]
    have e : x + a + (n - a % n) = x + (a / n + 1) * n := by
      have := Nat.div_add_mod a n
      rw [Nat.add_mul, Nat.one_mul, Nat.mul_comm (a / n)]
      omega
    rw [e, Nat.add_mul_mod_self_right, Nat.mod_eq_of_lt hx']
  · have hx' := Finset.mem_range.mp hx
    have ha := Nat.mod_lt a hn
    show ((x + (n - a % n)) % n + a) % n = x
    rw [Nat.mod_add_mod]
    have e : x + (n - a % n) + a = x + (a / n + 1) * n := by
      have := Nat.div_add_mod a n
      rw [Nat.add_mul, Nat.one_mul, Nat.mul_comm (a / n)]
      omega
    rw [e, Nat.add_mul_mod_self_right, Nat.mod_eq_of_lt hx']

theorem phase_add (n k x a : ℕ) : phase n k (x + a) = phase n k x * phase n k a := by
  unfold phase
  rw [← Complex.exp_add]
  congr 1
  push_cast
  ring

theorem phase_mod (n k x : ℕ) : phase n k (x % n) = phase n k x := by
  rcases Nat.eq_zero_or_pos n with rfl | hn
  · simp
  have hn0 : (n : ℂ) ≠ 0 := by exact_mod_cast hn.ne'
  conv_rhs => rw [← Nat.mod_add_div x n]
  rw [phase_add]
  suffices phase n k (n * (x / n)) = 1 by rw [this, mul_one]
  unfold phase
  rw [Complex.exp_eq_one_iff]
  generalize x / n = q
  refine ⟨-((k * q : ℕ) : ℤ), ?_⟩
  push_cast
  field_simp

theorem phase_unit (n k x : ℕ) : phase n k x * conj (phase n k x) = 1 := by
  rw [Complex.mul_conj]
  unfold phase
  have : -(2 * Real.pi * k * x / n : ℝ) * Complex.I = ((-(2 * Real.pi * k * x / n) : ℝ) : ℂ) * Complex.I := by push_cast; ring
  rw [this, Complex.normSq_eq_norm_sq, Complex.norm_exp_ofReal_mul_I]
  norm_num

/-- The phases of a mode other than the zero mode sum to zero. -/
theorem phase_sum (n k : ℕ) (h0 : k ≠ 0) (hk : k < n) : ∑ x ∈ Finset.range n, phase n k x = 0 := by
  have hn0 : (n : ℂ) ≠ 0 := by exact_mod_cast (by omega : n ≠ 0)
  have hpow : ∀ x, phase n k x = phase n k 1 ^ x := by
    intro x
    induction x with
    | zero => simp [phase]
    | succ x ih => rw [phase_add, ih, pow_succ]
  have h1 : phase n k 1 ≠ 1 := by
    intro h
    unfold phase at h
    rw [Complex.exp_eq_one_iff] at h
    obtain ⟨m, hm⟩ := h
    have hpi : (Real.pi : ℂ) ≠ 0 := by exact_mod_cast Real.pi_ne_zero
    have e : (-(k : ℂ)) = m * n := by
      push_cast at hm
      field_simp at hm
      have h2 : (2 * (Real.pi : ℂ) * Complex.I) ≠ 0 := mul_ne_zero (mul_ne_zero two_ne_zero hpi) Complex.I_ne_zero
      apply mul_right_cancel₀ h2
      linear_combination hm * (2 * (Real.pi : ℂ) * Complex.I)
    have e' : (-(k : ℤ)) = m * n := by exact_mod_cast e
    have hd : (n : ℤ) ∣ k := ⟨-m, by linarith [mul_comm m (n : ℤ)]⟩
    have := Int.natCast_dvd_natCast.mp hd
    exact absurd (Nat.le_of_dvd (Nat.pos_of_ne_zero h0) this) (by omega)
  have hgeo := mul_geom_sum (phase n k 1) n
  have hn1 : phase n k 1 ^ n = 1 := by rw [← hpow, ← phase_mod, Nat.mod_self]; simp [phase]
  rw [hn1, sub_self] at hgeo
  rw [Finset.sum_congr rfl fun x _ => hpow x]
  exact (mul_eq_zero.mp hgeo).resolve_left (sub_ne_zero.mpr h1)

/-! ## The result depends on the field through the power of the modes -/

theorem binSum_congr (g : Grid) (hN : 0 < g.N) (edges : List ℝ) (f f' : ℕ → ℕ → ℝ) (h : ∀ i j, i < g.rows → j < g.N → f i j = f' i j) (b : ℕ) :
    binSum g edges f b = binSum g edges f' b := by
  unfold binSum Hermitian.projSum
  congr 1
  apply List.map_congr_left
  intro i hi
  congr 1
  apply List.map_congr_left
  intro j hj
  have hi' := List.mem_range.mp hi
  have hj' := List.mem_range.mp hj
  by_cases hj2 : j < g.N
  · simp only [h i j hi' hj2]
  · exfalso
    omega

theorem binSum_mul (g : Grid) (edges : List ℝ) (c : ℝ) (f : ℕ → ℕ → ℝ) (b : ℕ) : binSum g edges (fun i j => c * f i j) b = c * binSum g edges f b := by
  unfold binSum Hermitian.projSum
  rw [← List.sum_map_mul_left]
  congr 1
  apply List.map_congr_left
  intro i _
  rw [← List.sum_map_mul_left]
  congr 1
  apply List.map_congr_left
  intro j _
  beta_reduce
  split
  · simp only [nsmul_eq_mul]; ring
  · simp

theorem binSum_nonneg (g : Grid) (edges : List ℝ) (f : ℕ → ℕ → ℝ) (h : ∀ i j, 0 ≤ f i j) (b : ℕ) : 0 ≤ binSum g edges f b := by
  unfold binSum Hermitian.projSum
  apply List.sum_nonneg
  intro x hx
  obtain ⟨i, -, rfl⟩ := List.mem_map.mp hx
  apply List.sum_nonneg
  intro y hy
  obtain ⟨j, -, rfl⟩ := List.mem_map.mp hy
  apply nsmul_nonneg
  beta_reduce
  split
  · exact h i j
  · exact le_rfl

/-- Fields with the same power of all modes have the same result. -/
theorem run_congr (g : Grid) (hN : 0 < g.N) (twoD : Bool) (kmin dk : ℝ) (δ1 δ2 ε1 ε2 : ℕ → ℕ → ℕ → ℝ)
    (h : ∀ i j, i < g.rows → j < g.N → pk g ε1 ε2 i j = pk g δ1 δ2 i j) : run g twoD kmin dk ε1 ε2 = run g twoD kmin dk δ1 δ2 := by
  unfold run
  apply List.map_congr_left
  intro b _
  unfold result
  rw [binSum_congr g hN _ (fun i j => (pk g ε1 ε2 i j).re) (fun i j => (pk g δ1 δ2 i j).re) (fun i j hi hj => by rw [h i j hi hj]),
    binSum_congr g hN _ (fun i j => (pk g ε1 ε2 i j).im) (fun i j => (pk g δ1 δ2 i j).im) (fun i j hi hj => by rw [h i j hi hj])]

/-! ## Symmetries -/

/-- C90: **only the sums along the axes that are not kept matter**. -/
theorem only_projection (g : Grid) (hN : 0 < g.N) (twoD : Bool) (kmin dk : ℝ) (δ1 δ2 ε1 ε2 : ℕ → ℕ → ℕ → ℝ)
    (h1 : ∀ x < g.rows, ∀ y < g.N, ∑ z ∈ Finset.range g.nOther, ε1 x y z = ∑ z ∈ Finset.range g.nOther, δ1 x y z)
    (h2 : ∀ x < g.rows, ∀ y < g.N, ∑ z ∈ Finset.range g.nOther, ε2 x y z = ∑ z ∈ Finset.range g.nOther, δ2 x y z) :
    run g twoD kmin dk ε1 ε2 = run g twoD kmin dk δ1 δ2 := by
  have hc : ∀ (ε δ : ℕ → ℕ → ℕ → ℝ), (∀ x < g.rows, ∀ y < g.N, ∑ z ∈ Finset.range g.nOther, ε x y z = ∑ z ∈ Finset.range g.nOther, δ x y z) →
      ∀ i j, coeff g ε i j = coeff g δ i j := by
    intro ε δ h i j
    unfold coeff preview
    simp only [Hermitian.listsum_range]
    congr 1
    refine Finset.sum_congr rfl fun x hx => Finset.sum_congr rfl fun y hy => ?_
    rw [h x (Finset.mem_range.mp hx) y (Finset.mem_range.mp hy)]
  refine run_congr g hN twoD kmin dk _ _ _ _ fun i j _ _ => ?_
  unfold pk
  rw [hc ε1 δ1 h1, hc ε2 δ2 h2]

/-- A field moved by cells along the axes, periodically. -/
def rolled (g : Grid) (a b c : ℕ) (δ : ℕ → ℕ → ℕ → ℝ) : ℕ → ℕ → ℕ → ℝ := fun x y z => δ ((x + a) % g.rows) ((y + b) % g.N) ((z + c) % g.nOther)

theorem coeff_rolled (g : Grid) (a b c : ℕ) (δ : ℕ → ℕ → ℕ → ℝ) (i j : ℕ) :
    coeff g (rolled g a b c δ) i j = conj (phase g.rows i a) * conj (phase g.N j b) * coeff g δ i j := by
  have hp : ∀ x y, preview g (rolled g a b c δ) x y = preview g δ ((x + a) % g.rows) ((y + b) % g.N) := by
    intro x y
    unfold preview rolled
    simp only [Hermitian.listsum_range]
    exact sum_rolled g.nOther c fun z => δ ((x + a) % g.rows) ((y + b) % g.N) z
  have hph : ∀ n k x a, phase n k x = phase n k ((x + a) % n) * conj (phase n k a) := by
    intro n k x a
    rw [phase_mod, phase_add, mul_assoc, phase_unit, mul_one]
  unfold coeff
  simp only [Hermitian.listsum_range, hp]
  rw [mul_div_assoc']
  congr 1
  rw [← sum_rolled g.rows a (fun x => ∑ y ∈ Finset.range g.N, (preview g δ x y : ℂ) * phase g.rows i x * phase g.N j y), Finset.mul_sum]
  refine Finset.sum_congr rfl fun x _ => ?_
  rw [← sum_rolled g.N b (fun y => (preview g δ ((x + a) % g.rows) y : ℂ) * phase g.rows i ((x + a) % g.rows) * phase g.N j y), Finset.mul_sum]
  refine Finset.sum_congr rfl fun y _ => ?_
  conv_lhs => rw [hph g.rows i x a, hph g.N j y b]
  ring

/-- C90: **moving both fields** by any number of cells along any axis of the periodic box changes nothing. -/
theorem translated (g : Grid) (hN : 0 < g.N) (twoD : Bool) (kmin dk : ℝ) (δ1 δ2 : ℕ → ℕ → ℕ → ℝ) (a b c d : ℕ) :
    run g twoD kmin dk (rolled g a b c δ1) (rolled g a b d δ2) = run g twoD kmin dk δ1 δ2 := by
  refine run_congr g hN twoD kmin dk _ _ _ _ fun i j _ _ => ?_
  unfold pk
  split
  · rfl
  · rw [coeff_rolled, coeff_rolled, map_mul, map_mul, Complex.conj_conj, Complex.conj_conj]
    have e1 := phase_unit g.rows i a
    have e2 := phase_unit g.N j b
    linear_combination (coeff g δ1 i j * conj (coeff g δ2 i j)) * (e1 + phase g.rows i a * conj (phase g.rows i a) * e2 - e1 * 0)

/-- C90: **adding a constant** to the fields changes nothing: contrasts and densities in units of the mean have the same power. -/
theorem constant_added (g : Grid) (hN : 0 < g.N) (twoD : Bool) (kmin dk : ℝ) (δ1 δ2 : ℕ → ℕ → ℕ → ℝ) (c1 c2 : ℝ) :
    run g twoD kmin dk (fun x y z => δ1 x y z + c1) (fun x y z => δ2 x y z + c2) = run g twoD kmin dk δ1 δ2 := by
  have hc : ∀ (δ : ℕ → ℕ → ℕ → ℝ) (c : ℝ) (i j : ℕ), i < g.rows → j < g.N → ¬ (i = 0 ∧ j = 0) → coeff g (fun x y z => δ x y z + c) i j = coeff g δ i j := by
    intro δ c i j hi hj h0
    unfold coeff preview
    simp only [Hermitian.listsum_range, Finset.sum_add_distrib, Finset.sum_const, Finset.card_range, nsmul_eq_mul, Complex.ofReal_add, add_mul]
    congr 1
    have : ∑ x ∈ Finset.range g.rows, ∑ y ∈ Finset.range g.N, (((g.nOther : ℝ) * c : ℝ) : ℂ) * phase g.rows i x * phase g.N j y = 0 := by
      have e : ∑ x ∈ Finset.range g.rows, ∑ y ∈ Finset.range g.N, (((g.nOther : ℝ) * c : ℝ) : ℂ) * phase g.rows i x * phase g.N j y =
          (((g.nOther : ℝ) * c : ℝ) : ℂ) * (∑ x ∈ Finset.range g.rows, phase g.rows i x) * ∑ y ∈ Finset.range g.N, phase g.N j y := by
        rw [mul_assoc, Finset.sum_mul_sum, Finset.mul_sum]
        refine Finset.sum_congr rfl fun x _ => ?_
        rw [Finset.mul_sum]
        exact Finset.sum_congr rfl fun y _ => by ring
      rw [e]
      by_cases hi0 : i = 0
      · rw [phase_sum g.N j (fun hj0 => h0 ⟨hi0, hj0⟩) hj, mul_zero]
      · rw [phase_sum g.rows i hi0 hi, mul_zero, zero_mul]
    rw [this, add_zero]
  refine run_congr g hN twoD kmin dk _ _ _ _ fun i j hi hj => ?_
  unfold pk
  split
  · rfl
  · rename_i h0
    rw [hc δ1 c1 i j hi hj h0, hc δ2 c2 i j hi hj h0]

/-- C90: **scaling the fields** scales the power, and nothing else. -/
theorem scaled (g : Grid) (twoD : Bool) (kmin dk : ℝ) (δ1 δ2 : ℕ → ℕ → ℕ → ℝ) (c1 c2 : ℝ) :
    run g twoD kmin dk (fun x y z => c1 * δ1 x y z) (fun x y z => c2 * δ2 x y z) =
      (run g twoD kmin dk δ1 δ2).map fun r => (r.1, c1 * c2 * r.2.1, c1 * c2 * r.2.2.1, r.2.2.2) := by
  have hc : ∀ (δ : ℕ → ℕ → ℕ → ℝ) (c : ℝ) (i j : ℕ), coeff g (fun x y z => c * δ x y z) i j = c * coeff g δ i j := by
    intro δ c i j
    unfold coeff preview
    simp only [Hermitian.listsum_range, ← Finset.mul_sum, Complex.ofReal_mul, mul_assoc]
    rw [mul_div_assoc]
  have hpk : ∀ i j, pk g (fun x y z => c1 * δ1 x y z) (fun x y z => c2 * δ2 x y z) i j = ((c1 * c2 : ℝ) : ℂ) * pk g δ1 δ2 i j := by
    intro i j
    unfold pk
    split
    · simp
    · rw [hc, hc, map_mul, Complex.conj_ofReal]
      push_cast
      ring
  unfold run
  rw [List.map_map]
  apply List.map_congr_left
  intro b _
  simp only [result, Function.comp_apply, hpk, Complex.re_ofReal_mul, Complex.im_ofReal_mul, binSum_mul]
  refine Prod.ext rfl (Prod.ext ?_ (Prod.ext ?_ rfl)) <;> · simp only; ring

theorem conj_run (g : Grid) (twoD : Bool) (kmin dk : ℝ) (δ1 δ2 ε1 ε2 : ℕ → ℕ → ℕ → ℝ) (hN : 0 < g.N)
    (h : ∀ i j, i < g.rows → j < g.N → pk g ε1 ε2 i j = conj (pk g δ1 δ2 i j)) :
    run g twoD kmin dk ε1 ε2 = (run g twoD kmin dk δ1 δ2).map fun r => (r.1, r.2.1, -r.2.2.1, r.2.2.2) := by
  unfold run
  rw [List.map_map]
  apply List.map_congr_left
  intro b _
  simp only [result, Function.comp_apply]
  rw [binSum_congr g hN _ (fun i j => (pk g ε1 ε2 i j).re) (fun i j => (pk g δ1 δ2 i j).re) (fun i j hi hj => by rw [h i j hi hj, Complex.conj_re]),
    binSum_congr g hN _ (fun i j => (pk g ε1 ε2 i j).im) (fun i j => -1 * (pk g δ1 δ2 i j).im) (fun i j hi hj => by rw [h i j hi hj, Complex.conj_im]; ring), binSum_mul]
  refine Prod.ext rfl (Prod.ext rfl (Prod.ext ?_ rfl))
  simp only
  ring

/-- C90: **exchanging the two fields** changes the sign of the imaginary part only. -/
theorem exchanged (g : Grid) (hN : 0 < g.N) (twoD : Bool) (kmin dk : ℝ) (δ1 δ2 : ℕ → ℕ → ℕ → ℝ) :
    run g twoD kmin dk δ2 δ1 = (run g twoD kmin dk δ1 δ2).map fun r => (r.1, r.2.1, -r.2.2.1, r.2.2.2) := by
  refine conj_run g twoD kmin dk _ _ _ _ hN fun i j _ _ => ?_
  unfold pk
  split
  · simp
  · rw [map_mul, Complex.conj_conj, mul_comm]

/-- A field mirrored at the origin along the axes kept. -/
def mirrored (g : Grid) (δ : ℕ → ℕ → ℕ → ℝ) : ℕ → ℕ → ℕ → ℝ := fun x y z => δ (neg g.rows x) (neg g.N y) z

theorem sum_neg {M : Type} [AddCommMonoid M] (n : ℕ) (F : ℕ → M) : ∑ x ∈ Finset.range n, F (neg n x) = ∑ x ∈ Finset.range n, F x := by
  have hlt : ∀ x, x < n → neg n x < n := fun x hx => by unfold neg; exact Nat.mod_lt _ (by omega)
  have hinv : ∀ x, x < n → neg n (neg n x) = x := by
    intro x hx
    unfold neg
    by_cases h0 : x = 0
    · subst h0; simp
    · rw [Nat.mod_eq_of_lt (by omega : n - x < n), show n - (n - x) = x by omega, Nat.mod_eq_of_lt hx]
  refine Finset.sum_nbij' (neg n) (neg n) (fun x hx => ?_) (fun x hx => ?_) (fun x hx => hinv x (Finset.mem_range.mp hx)) (fun x hx => hinv x (Finset.mem_range.mp hx)) (fun x _ => rfl)
  · exact Finset.mem_range.mpr (hlt x (Finset.mem_range.mp hx))
  · exact Finset.mem_range.mpr (hlt x (Finset.mem_range.mp hx))

theorem phase_comm (n k x : ℕ) : phase n k x = phase n x k := by
  unfold phase
  congr 2
  push_cast
  ring

/-- C90: **mirroring both fields** changes the sign of the imaginary part only. -/
theorem mirror (g : Grid) (hN : 0 < g.N) (twoD : Bool) (kmin dk : ℝ) (δ1 δ2 : ℕ → ℕ → ℕ → ℝ) :
    run g twoD kmin dk (mirrored g δ1) (mirrored g δ2) = (run g twoD kmin dk δ1 δ2).map fun r => (r.1, r.2.1, -r.2.2.1, r.2.2.2) := by
  have hc : ∀ (δ : ℕ → ℕ → ℕ → ℝ) (i j : ℕ), coeff g (mirrored g δ) i j = conj (coeff g δ i j) := by
    intro δ i j
    have hph : ∀ n k x, x < n → phase n k x = conj (phase n k (neg n x)) := by
      intro n k x hx
      rw [phase_comm n k (neg n x), phase_neg n x k hx, Complex.conj_conj, phase_comm]
    unfold coeff
    simp only [Hermitian.listsum_range, map_div₀, map_sum, map_mul, Complex.conj_ofReal, Complex.conj_natCast]
    congr 1
    rw [← sum_neg g.rows (fun x => ∑ y ∈ Finset.range g.N, (preview g δ x y : ℂ) * conj (phase g.rows i x) * conj (phase g.N j y))]
    refine Finset.sum_congr rfl fun x hx => ?_
    rw [← sum_neg g.N (fun y => (preview g δ (neg g.rows x) y : ℂ) * conj (phase g.rows i (neg g.rows x)) * conj (phase g.N j y))]
    refine Finset.sum_congr rfl fun y hy => ?_
    rw [hph g.rows i x (Finset.mem_range.mp hx), hph g.N j y (Finset.mem_range.mp hy)]
    rfl
  refine conj_run g twoD kmin dk _ _ _ _ hN fun i j _ _ => ?_
  unfold pk
  split
  · simp
  · rw [hc, hc, map_mul]

/-- C90: **an auto-power is real and not negative**. -/
theorem auto_nonneg (g : Grid) (twoD : Bool) (kmin dk : ℝ) (δ : ℕ → ℕ → ℕ → ℝ) (hL : 0 ≤ g.Lrow) (hL' : 0 ≤ g.L) : ∀ r ∈ run g twoD kmin dk δ δ, 0 ≤ r.2.1 ∧ r.2.2.1 = 0 := by
  intro r hr
  obtain ⟨b, -, rfl⟩ := List.mem_map.mp hr
  have hpk : ∀ i j, 0 ≤ (pk g δ δ i j).re ∧ (pk g δ δ i j).im = 0 := by
    intro i j
    unfold pk
    split
    · simp
    · rw [Complex.mul_conj, Complex.ofReal_re, Complex.ofReal_im]
      exact ⟨Complex.normSq_nonneg _, rfl⟩
  have hA : 0 ≤ area g twoD := by
    unfold area
    split
    · exact mul_nonneg hL hL'
    · exact hL'
  have hz : ∀ e b, binSum g e (fun i j => (pk g δ δ i j).im) b = 0 := by
    intro e b
    have := binSum_mul g e 0 (fun _ _ => 0) b
    simp only [zero_mul] at this
    simp only [hpk]
    exact this
  refine ⟨mul_nonneg (div_nonneg (binSum_nonneg g _ _ (fun i j => (hpk i j).1) _) (binSum_nonneg g _ _ (fun _ _ => zero_le_one) _)) hA, ?_⟩
  simp only [result]
  rw [hz, zero_div, zero_mul]

/-! ## Bins -/

/-- C90: **the edges** start at `kmin`, in steps of `dk`, and end within half a step of the Nyquist wavenumber of the coarsest axis kept. -/
theorem kedges_spec (g : Grid) (twoD : Bool) (kmin dk : ℝ) (hd : 0 < dk) (hk : kmin ≤ Real.pi * cells g twoD / extent g twoD) :
    (kedges g twoD kmin dk).Pairwise (· < ·) ∧ (kedges g twoD kmin dk).head? = some kmin ∧
      (∀ (m : ℕ) e, (kedges g twoD kmin dk)[m]? = some e → e = kmin + m * dk) ∧
      ∃ e, (kedges g twoD kmin dk).getLast? = some e ∧ |e - Real.pi * cells g twoD / extent g twoD| ≤ dk / 2 := by
  unfold kedges
  generalize Real.pi * cells g twoD / extent g twoD = N at *
  obtain ⟨n, hn⟩ : ∃ n, n = ⌈(N + dk / 2 - kmin) / dk⌉₊ := ⟨_, rfl⟩
  rw [← hn]
  have hpos : 0 < (N + dk / 2 - kmin) / dk := div_pos (by linarith) hd
  have h1 : 0 < n := by rw [hn]; exact Nat.ceil_pos.mpr hpos
  have h2 : (N + dk / 2 - kmin) / dk ≤ n := by rw [hn]; exact Nat.le_ceil _
  have h3 : (n : ℝ) < (N + dk / 2 - kmin) / dk + 1 := by rw [hn]; exact Nat.ceil_lt_add_one hpos.le
  rw [div_le_iff₀ hd] at h2
  have h3' : ((n : ℝ) - 1) * dk < N + dk / 2 - kmin := by
    rw [← lt_div_iff₀ hd]
    linarith
  obtain ⟨m, rfl⟩ : ∃ m, n = m + 1 := ⟨n - 1, by omega⟩
  refine ⟨?_, ?_, ?_, kmin + m * dk, ?_, ?_⟩
  · rw [List.pairwise_map]
    exact List.pairwise_lt_range.imp fun {a b} hab => by
      have : (a : ℝ) < b := by exact_mod_cast hab
      have := mul_lt_mul_of_pos_right this hd
      linarith
  · rw [List.range_succ_eq_map]
    simp
  · intro i e he
    rw [List.getElem?_map, Option.map_eq_some_iff] at he
    obtain ⟨a, ha, rfl⟩ := he
    obtain ⟨hlt, hae⟩ := List.getElem?_eq_some_iff.mp ha
    rw [List.getElem_range] at hae
    rw [hae]
  · rw [List.range_succ, List.map_append, List.map_singleton, List.getLast?_concat]
  · rw [abs_le]
    push_cast at h2 h3'
    constructor <;> nlinarith

/-- C90: **no edge is beyond the Nyquist wavenumber** of an axis kept by more than half a step; with the same cells along both axes the last edge is within half a step of it. -/
theorem edges_nyquist (g : Grid) (twoD : Bool) (kmin dk : ℝ) (hd : 0 < dk) (hL : 0 < g.L) (hr : 0 < g.Lrow) (hk : kmin ≤ Real.pi * cells g twoD / extent g twoD) :
    (∀ e ∈ kedges g twoD kmin dk, e ≤ Real.pi * g.N / g.L + dk / 2 ∧ (twoD = true → e ≤ Real.pi * g.rows / g.Lrow + dk / 2)) ∧
      (twoD = false ∨ (g.rows = g.N ∧ g.Lrow = g.L) → ∃ e, (kedges g twoD kmin dk).getLast? = some e ∧ |e - Real.pi * g.N / g.L| ≤ dk / 2) := by
  obtain ⟨-, -, hform, e, hlast, habs⟩ := kedges_spec g twoD kmin dk hd hk
  have hE : 0 < extent g twoD := by
    unfold extent
    split
    · exact lt_max_of_lt_left hr
    · exact hL
  have hpi := Real.pi_pos
  have c1 : Real.pi * cells g twoD / extent g twoD ≤ Real.pi * g.N / g.L := by
    apply div_le_div₀ (by positivity) _ hL _
    · apply mul_le_mul_of_nonneg_left _ hpi.le
      unfold cells
      split <;> simp
    · unfold extent
      split <;> simp
  have c2 : twoD = true → Real.pi * cells g twoD / extent g twoD ≤ Real.pi * g.rows / g.Lrow := by
    rintro rfl
    apply div_le_div₀ (by positivity) _ hr _
    · apply mul_le_mul_of_nonneg_left _ hpi.le
      simp [cells]
    · simp [extent]
  have hle : ∀ x ∈ kedges g twoD kmin dk, x ≤ e := by
    intro x hx
    obtain ⟨m, hm, hxm⟩ := List.getElem_of_mem hx
    have e1 := hform m x (by rw [List.getElem?_eq_getElem hm, hxm])
    have hl : (kedges g twoD kmin dk)[(kedges g twoD kmin dk).length - 1]? = some e := by rw [← List.getLast?_eq_getElem?]; exact hlast
    have e2 := hform _ e hl
    rw [e1, e2]
    have : (m : ℝ) ≤ ((kedges g twoD kmin dk).length - 1 : ℕ) := by exact_mod_cast (by omega : m ≤ (kedges g twoD kmin dk).length - 1)
    have := mul_le_mul_of_nonneg_right this hd.le
    linarith
  have hab := abs_le.mp habs
  refine ⟨fun x hx => ⟨?_, fun ht => ?_⟩, fun hc => ⟨e, hlast, ?_⟩⟩
  · have := hle x hx
    linarith
  · have := hle x hx
    have := c2 ht
    linarith
  · have : Real.pi * cells g twoD / extent g twoD = Real.pi * g.N / g.L := by
      rcases hc with rfl | ⟨h1, h2⟩
      · rfl
      · unfold cells extent
        cases twoD <;> simp [h1, h2]
    rw [this] at habs
    exact habs

/-- C90: there is one row for each pair of consecutive edges, with the mean over the modes between them. -/
theorem run_rows (g : Grid) (twoD : Bool) (kmin dk : ℝ) (δ1 δ2 : ℕ → ℕ → ℕ → ℝ) :
    (run g twoD kmin dk δ1 δ2).length = (kedges g twoD kmin dk).length - 1 ∧
      ∀ b, b + 1 < (kedges g twoD kmin dk).length → (run g twoD kmin dk δ1 δ2)[b]? = some (result g twoD (kedges g twoD kmin dk) δ1 δ2 b) := by
  unfold run
  refine ⟨by simp, fun b hb => ?_⟩
  rw [List.getElem?_map, List.getElem?_range (by omega)]
  rfl

/-! ## Units -/

/-- The same cells in a box `s` times as long. -/
noncomputable def stretched (s : ℝ) (g : Grid) : Grid := { g with Lrow := s * g.Lrow, L := s * g.L }

theorem kmag_stretched (s : ℝ) (hs : 0 < s) (g : Grid) (i j : ℕ) : kmag (stretched s g) i j = s⁻¹ * kmag g i j := by
  unfold kmag stretched
  have e : ∀ f L : ℝ, (f * (2 * Real.pi / (s * L))) ^ 2 = (s⁻¹) ^ 2 * (f * (2 * Real.pi / L)) ^ 2 := by
    intro f L
    rw [← mul_pow]
    congr 1
    rw [div_mul_eq_div_div_swap]
    ring
  simp only [e]
  rw [← mul_add, Real.sqrt_mul (sq_nonneg _), Real.sqrt_sq (inv_nonneg.mpr hs.le)]

theorem digitize_stretched (s : ℝ) (hs : 0 < s) (edges : List ℝ) (v : ℝ) : digitize (edges.map (s⁻¹ * ·)) (s⁻¹ * v) = digitize edges v := by
  unfold digitize
  rw [List.filter_map, List.length_map]
  congr 1
  apply List.filter_congr
  intro e _
  simp only [Function.comp_apply, decide_eq_decide]
  exact mul_le_mul_iff_right₀ (inv_pos.mpr hs)

/-- C90: **units**: in a box stretched by `s` with `kmin` and `dk` divided by `s`, the wavenumbers are divided by `s` and the power is multiplied with `s`
(one axis) or its square (two axes). -/
theorem units (s : ℝ) (hs : 0 < s) (g : Grid) (twoD : Bool) (kmin dk : ℝ) (δ1 δ2 : ℕ → ℕ → ℕ → ℝ) :
    run (stretched s g) twoD (s⁻¹ * kmin) (s⁻¹ * dk) δ1 δ2 =
      (run g twoD kmin dk δ1 δ2).map fun r => (s⁻¹ * r.1, s ^ (if twoD then 2 else 1) * r.2.1, s ^ (if twoD then 2 else 1) * r.2.2.1, r.2.2.2) := by
  have hs0 := hs.ne'
  have hext : extent (stretched s g) twoD = s * extent g twoD := by
    unfold extent stretched
    split
    · rw [mul_max_of_nonneg _ _ hs.le]
    · rfl
  have hcells : cells (stretched s g) twoD = cells g twoD := rfl
  have hked : kedges (stretched s g) twoD (s⁻¹ * kmin) (s⁻¹ * dk) = (kedges g twoD kmin dk).map (s⁻¹ * ·) := by
    unfold kedges
    rw [hext, hcells, List.map_map]
    have e : (Real.pi * cells g twoD / (s * extent g twoD) + s⁻¹ * dk / 2 - s⁻¹ * kmin) / (s⁻¹ * dk) = (Real.pi * cells g twoD / extent g twoD + dk / 2 - kmin) / dk := by
      rw [← mul_div_mul_left (Real.pi * cells g twoD / extent g twoD + dk / 2 - kmin) dk (inv_ne_zero hs0), mul_sub, mul_add]
      have e0 : Real.pi * cells g twoD / (s * extent g twoD) = s⁻¹ * (Real.pi * cells g twoD / extent g twoD) := by
        rw [div_mul_eq_div_div_swap]
        ring
      rw [e0, mul_div_assoc s⁻¹ dk 2]
    rw [e]
    apply List.map_congr_left
    intro m _
    simp only [Function.comp_apply]
    ring
  have hbin : ∀ e f b, binSum (stretched s g) (e.map (s⁻¹ * ·)) f b = binSum g e f b := by
    intro e f b
    unfold binSum
    simp only [kmag_stretched s hs, digitize_stretched s hs]
    rfl
  have harea : area (stretched s g) twoD = s ^ (if twoD then 2 else 1) * area g twoD := by
    unfold area stretched
    cases twoD <;> simp <;> ring
  have hpk : ∀ i j, pk (stretched s g) δ1 δ2 i j = pk g δ1 δ2 i j := fun _ _ => rfl
  unfold run
  rw [hked, List.length_map, List.map_map]
  apply List.map_congr_left
  intro b _
  simp only [result, Function.comp_apply, hbin, harea, hpk, kmag_stretched s hs, binSum_mul]
  have hkm : binSum g (kedges g twoD kmin dk) (kmag (stretched s g)) (b + 1) = s⁻¹ * binSum g (kedges g twoD kmin dk) (kmag g) (b + 1) := by
    rw [← binSum_mul]
    congr 1
    funext i j
    exact kmag_stretched s hs g i j
  rw [hkm]
  refine Prod.ext ?_ (Prod.ext ?_ (Prod.ext ?_ rfl)) <;> · simp only; ring

/-! ## A case -/

/-- The bins of four cells on a line of length 2π from `kmin = 1/2` in steps of 1: the Nyquist wavenumber is 2. -/
theorem case_edges : kedges line4 false (1 / 2) 1 = [1 / 2, 3 / 2] := by
  have hpi := Real.pi_ne_zero
  have e : (Real.pi * (cells line4 false : ℕ) / extent line4 false + 1 / 2 - 1 / 2) / 1 = ((2 : ℕ) : ℝ) := by
    simp only [cells, extent, line4, Bool.false_eq_true, if_false]
    push_cast
    field_simp
    norm_num
  unfold kedges
  rw [e, Nat.ceil_natCast]
  simp only [show List.range 2 = [0, 1] from rfl, List.map_cons, List.map_nil]
  norm_num

/-- A field in the first cell and one in the second, moved by three cells and with constants added: the imaginary part stays. The exchange changes its sign. -/
theorem case_symmetries (c : ℝ) :
    (run line4 false (1 / 2) 1 (fun _ y _ => if y = 0 then 1 else 0) (fun _ y _ => if y = 1 then 1 else 0)).map (fun r => r.2.2.1) = [Real.pi / 8] ∧
    (run line4 false (1 / 2) 1 (fun _ y _ => (if (y + 3) % 4 = 0 then 1 else 0) + c) (fun _ y _ => (if (y + 3) % 4 = 1 then 1 else 0) - c)).map (fun r => r.2.2.1) = [Real.pi / 8] ∧
    (run line4 false (1 / 2) 1 (fun _ y _ => if y = 1 then 1 else 0) (fun _ y _ => if y = 0 then 1 else 0)).map (fun r => r.2.2.1) = [-(Real.pi / 8)] := by
  have h0 : (run line4 false (1 / 2) 1 (fun _ y _ => if y = 0 then 1 else 0) (fun _ y _ => if y = 1 then 1 else 0)).map (fun r => r.2.2.1) = [Real.pi / 8] := by
    unfold run
    rw [case_edges]
    simp only [List.length_cons, List.length_nil, Nat.zero_add, Nat.add_sub_cancel, show List.range 1 = [0] from rfl, List.map_cons, List.map_nil, imag_kept]
  have h4 : 0 < line4.N := by decide
  refine ⟨h0, ?_, ?_⟩
  · have := translated line4 h4 false (1 / 2) 1 (fun _ y _ => if y = 0 then 1 else 0) (fun _ y _ => if y = 1 then 1 else 0) 0 3 0 0
    have k := constant_added line4 h4 false (1 / 2) 1 (rolled line4 0 3 0 (fun _ y _ => if y = 0 then 1 else 0)) (rolled line4 0 3 0 (fun _ y _ => if y = 1 then 1 else 0)) c (-c)
    rw [this] at k
    rw [← h0, ← k]
    rfl
  · rw [exchanged line4 h4, List.map_map]
    have : ((fun r : ℝ × ℝ × ℝ × ℝ => r.2.2.1) ∘ fun r : ℝ × ℝ × ℝ × ℝ => (r.1, r.2.1, -r.2.2.1, r.2.2.2)) = (fun v => -v) ∘ fun r => r.2.2.1 := rfl
    rw [this, ← List.map_map, h0]
    rfl

end NBK.ProjPower
