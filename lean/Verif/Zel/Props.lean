import Verif.Zel.BesselProps
import Verif.Zel.DispProps
import Mathlib.Analysis.Calculus.Deriv.MeanValue

/-! # Zel'dovich power: the transforms and sums of the code are the integrals of the docstrings, up to the range of one of them -/
set_option linter.unusedSimpArgs false
namespace NBK.Zel
open Real

/-! ## The transforms -/

theorem const_mul : (2 * π) ^ (1.5 : ℝ) * sqrt (2 / π) = 4 * π := by
  have hp := pi_pos
  have e : (2 * π) ^ (1.5 : ℝ) = 2 * π * sqrt (2 * π) := by
    rw [show (1.5 : ℝ) = 1 + 1 / 2 by norm_num, rpow_add (by positivity), rpow_one, sqrt_eq_rpow]
  rw [e, mul_assoc, ← sqrt_mul (by positivity), show 2 * π * (2 / π) = 2 ^ 2 by field_simp, sqrt_sq (by norm_num)]
  ring

theorem const_div : 1 / (2 * π) ^ (1.5 : ℝ) * sqrt (2 / π) = 1 / (2 * π ^ 2) := by
  have hp := pi_pos
  have h := const_mul
  have hs : sqrt (2 / π) ^ 2 = 2 / π := sq_sqrt (by positivity)
  have h0 : 0 < (2 * π) ^ (1.5 : ℝ) := by positivity
  have h1 : 0 < sqrt (2 / π) := sqrt_pos.2 (by positivity)
  have : (2 * π) ^ (1.5 : ℝ) = 4 * π / sqrt (2 / π) := by rw [eq_div_iff h1.ne', h]
  rw [this, one_div_div, div_mul_eq_mul_div, ← sq, hs]
  field_simp
  norm_num

theorem pos_of_uIcc {lo hi x : ℝ} (h1 : 0 < lo) (h2 : 0 < hi) (hx : x ∈ Set.uIcc lo hi) : 0 < x :=
  lt_of_lt_of_le (lt_min h1 h2) hx.1

/-- The docstring of `ZeldovichJ0`. -/
theorem J0_doc (P : ℝ → ℝ) (lo hi r : ℝ) (h1 : 0 < lo) (h2 : 0 < hi) :
    (zeldovichJ0 lo hi).apply P r = ∫ k in lo..hi, P k / (2 * π ^ 2) * sph 0 (k * r) := by
  unfold zeldovichJ0 Mcfit.apply
  dsimp only
  rw [← intervalIntegral.integral_const_mul]
  refine intervalIntegral.integral_congr fun k hk => ?_
  have hk := pos_of_uIcc h1 h2 hk
  have := const_div
  calc _ = (1 / (2 * π) ^ (1.5 : ℝ) * sqrt (2 / π)) * (P k * sph 0 (k * r)) * (k / k) := by ring
    _ = _ := by rw [this, div_self hk.ne']; ring

/-- The docstring of `ZeldovichJ1`. -/
theorem J1_doc (P : ℝ → ℝ) (lo hi r : ℝ) (h1 : 0 < lo) (h2 : 0 < hi) :
    (zeldovichJ1 lo hi).apply P r = ∫ k in lo..hi, P k / (2 * π ^ 2) * (sph 1 (k * r) / (k * r)) := by
  unfold zeldovichJ1 Mcfit.apply
  dsimp only
  rw [← intervalIntegral.integral_const_mul]
  refine intervalIntegral.integral_congr fun k hk => ?_
  have := const_div
  calc _ = (1 / (2 * π) ^ (1.5 : ℝ) * sqrt (2 / π)) * (P k * (sph 1 (k * r) / (k * r))) := by
        rw [div_mul_eq_div_div]; ring
    _ = _ := by rw [this]; ring

/-- The integral of `ZeldovichPowerIntegral`: `4 pi ∫ dr r^2 F(r) / r^n j_n(kr)`. -/
theorem power_integral_doc (F : ℝ → ℝ) (a b k : ℝ) (n : ℕ) (h1 : 0 < a) (h2 : 0 < b) :
    (zeldovichPowerIntegral a b n).apply F k = 4 * π * ∫ r in a..b, r ^ 2 * (F r / r ^ n) * sph n (k * r) := by
  unfold zeldovichPowerIntegral Mcfit.apply
  dsimp only
  rw [← intervalIntegral.integral_const_mul, ← intervalIntegral.integral_const_mul]
  refine intervalIntegral.integral_congr fun r hr => ?_
  have hr := pos_of_uIcc h1 h2 hr
  rw [← const_mul, zpow_sub₀ hr.ne', zpow_natCast, show r ^ (3 : ℤ) = r ^ 3 by norm_cast, mul_comm r k]
  field_simp

/-! ## What `_setup` stores, and what its docstring says -/

/-- `sigma_v^2` of the docstring over a range of wavenumbers. -/
noncomputable def docSigmasq (P : ℝ → ℝ) (lo hi : ℝ) : ℝ := 1 / (6 * π ^ 2) * ∫ k in lo..hi, P k

/-- `X` of the docstring. -/
noncomputable def docX (P : ℝ → ℝ) (lo hi q : ℝ) : ℝ := ∫ k in lo..hi, P k / (2 * π ^ 2) * (2 / 3 - 2 * (sph 1 (k * q) / (k * q)))

/-- `Y` of the docstring. -/
noncomputable def docY (P : ℝ → ℝ) (lo hi q : ℝ) : ℝ := ∫ k in lo..hi, P k / (2 * π ^ 2) * (-2 * sph 0 (k * q) + 6 * (sph 1 (k * q) / (k * q)))

theorem sph_zero_eq (x : ℝ) (hx : x ≠ 0) : sph 0 x = poisson 0 x / 2 := by
  rw [sph_poisson 0 x hx]; simp; ring

theorem integrable_J0 {P : ℝ → ℝ} {lo hi : ℝ} (r : ℝ) (h1 : 0 < lo) (h2 : 0 < hi) (hr : r ≠ 0) (hP : ContinuousOn P (Set.uIcc lo hi)) :
    IntervalIntegrable (fun k => P k / (2 * π ^ 2) * sph 0 (k * r)) MeasureTheory.volume lo hi := by
  apply ContinuousOn.intervalIntegrable
  have : Set.EqOn (fun k => P k / (2 * π ^ 2) * sph 0 (k * r)) (fun k => P k / (2 * π ^ 2) * (poisson 0 (k * r) / 2)) (Set.uIcc lo hi) := by
    intro k hk
    dsimp only
    rw [sph_zero_eq _ (mul_ne_zero (pos_of_uIcc h1 h2 hk).ne' hr)]
  refine ContinuousOn.congr ?_ this
  have := poisson_continuous 0
  fun_prop

theorem integrable_J1 {P : ℝ → ℝ} {lo hi : ℝ} (r : ℝ) (h1 : 0 < lo) (h2 : 0 < hi) (hr : r ≠ 0) (hP : ContinuousOn P (Set.uIcc lo hi)) :
    IntervalIntegrable (fun k => P k / (2 * π ^ 2) * (sph 1 (k * r) / (k * r))) MeasureTheory.volume lo hi := by
  apply ContinuousOn.intervalIntegrable
  have : Set.EqOn (fun k => P k / (2 * π ^ 2) * (sph 1 (k * r) / (k * r))) (fun k => P k / (2 * π ^ 2) * (poisson 1 (k * r) / 4)) (Set.uIcc lo hi) := by
    intro k hk
    dsimp only
    rw [sph_one_div _ (mul_ne_zero (pos_of_uIcc h1 h2 hk).ne' hr)]
  refine ContinuousOn.congr ?_ this
  have := poisson_continuous 1
  fun_prop

/-- The stored dispersion is that of wavenumbers from 1e-5 to 10. -/
theorem setup_sigmasq (P : ℝ → ℝ) (lo hi : ℝ) : (setup P lo hi).sigmasq = docSigmasq P 1e-5 10 := by
  unfold setup docSigmasq
  dsimp only
  rw [dispersion_sq P _ _ (by norm_num) (by norm_num), Complex.ofReal_re]
  ring

/-- `Y` is that of the docstring. -/
theorem setup_Y (P : ℝ → ℝ) (lo hi r : ℝ) (h1 : 0 < lo) (h2 : 0 < hi) (hr : r ≠ 0) (hP : ContinuousOn P (Set.uIcc lo hi)) :
    (setup P lo hi).Y r = docY P lo hi r := by
  have i0 := integrable_J0 r h1 h2 hr hP
  have i1 := integrable_J1 r h1 h2 hr hP
  have e : (setup P lo hi).Y r = -2 * (zeldovichJ0 lo hi).apply P r + 6 * (zeldovichJ1 lo hi).apply P r := rfl
  rw [e, J0_doc P lo hi r h1 h2, J1_doc P lo hi r h1 h2, ← intervalIntegral.integral_const_mul, ← intervalIntegral.integral_const_mul,
    ← intervalIntegral.integral_add (i0.const_mul _) (i1.const_mul _)]
  unfold docY
  refine intervalIntegral.integral_congr fun k _ => ?_
  ring

/-- `X` is that of the docstring, less twice the dispersion from the wavenumbers that are in the transforms and not between 1e-5 and 10. -/
theorem setup_X (P : ℝ → ℝ) (lo hi r : ℝ) (h1 : 0 < lo) (h2 : 0 < hi) (hr : r ≠ 0) (hP : ContinuousOn P (Set.uIcc lo hi)) :
    (setup P lo hi).X r = docX P lo hi r - 2 * (docSigmasq P lo hi - docSigmasq P 1e-5 10) := by
  have i1 := integrable_J1 r h1 h2 hr hP
  have e : (setup P lo hi).X r = -2 * (zeldovichJ1 lo hi).apply P r + 2 * (setup P lo hi).sigmasq := rfl
  have i2 : IntervalIntegrable (fun k => 2 / 3 * (P k / (2 * π ^ 2))) MeasureTheory.volume lo hi := by
    apply ContinuousOn.intervalIntegrable; fun_prop
  have ex : docX P lo hi r = 2 * docSigmasq P lo hi + -2 * (zeldovichJ1 lo hi).apply P r := by
    rw [J1_doc P lo hi r h1 h2]
    have e1 : 2 * docSigmasq P lo hi = ∫ k in lo..hi, 2 / 3 * (P k / (2 * π ^ 2)) := by
      rw [intervalIntegral.integral_const_mul, intervalIntegral.integral_div]
      unfold docSigmasq
      field_simp
      ring
    rw [e1, ← intervalIntegral.integral_const_mul, ← intervalIntegral.integral_add i2 (i1.const_mul _)]
    unfold docX
    refine intervalIntegral.integral_congr fun k _ => ?_
    ring
  rw [e, setup_sigmasq, ex]
  ring

/-- `X` of the docstring is nowhere negative: it is a mean of squares of displacements. -/
theorem docX_nonneg (P : ℝ → ℝ) (lo hi r : ℝ) (h1 : 0 < lo) (h2 : lo ≤ hi) (hr : r ≠ 0) (hP : ∀ k, lo ≤ k → k ≤ hi → 0 ≤ P k) : 0 ≤ docX P lo hi r := by
  refine intervalIntegral.integral_nonneg h2 fun k hk => ?_
  have hk0 : k * r ≠ 0 := mul_ne_zero (h1.trans_le hk.1).ne' hr
  have := (abs_le.1 (sph_one_le _ hk0)).2
  exact mul_nonneg (div_nonneg (hP k hk.1 hk.2) (by positivity)) (by linarith)

theorem docX_le (P : ℝ → ℝ) (lo hi r : ℝ) (h1 : 0 < lo) (h2 : lo ≤ hi) (hr : r ≠ 0) (hP : ∀ k, lo ≤ k → k ≤ hi → 0 ≤ P k) (hc : ContinuousOn P (Set.uIcc lo hi)) :
    docX P lo hi r ≤ r ^ 2 * (hi ^ 2 * (3 / 2 * docSigmasq P lo hi)) := by
  have e : r ^ 2 * (hi ^ 2 * (3 / 2 * docSigmasq P lo hi)) = ∫ k in lo..hi, P k / (2 * π ^ 2) * (r ^ 2 * hi ^ 2 / 2) := by
    rw [intervalIntegral.integral_mul_const, intervalIntegral.integral_div]
    unfold docSigmasq
    field_simp
    ring
  have h3 : 0 < hi := h1.trans_le h2
  have i1 := integrable_J1 r h1 h3 hr hc
  have i2 : IntervalIntegrable (fun k => 2 / 3 * (P k / (2 * π ^ 2))) MeasureTheory.volume lo hi := by
    apply ContinuousOn.intervalIntegrable; fun_prop
  rw [e]
  unfold docX
  refine intervalIntegral.integral_mono_on h2 ?_ (by apply ContinuousOn.intervalIntegrable; fun_prop) fun k hk => ?_
  · have := i2.add (i1.const_mul (-2))
    refine this.congr ?_
    intro k _
    dsimp only [Pi.add_apply]
    ring
  · have hk0 : k * r ≠ 0 := mul_ne_zero (h1.trans_le hk.1).ne' hr
    have hk1 : 0 < k := h1.trans_le hk.1
    rw [sph_one_div _ hk0]
    have h4 := poisson_near (k * r)
    have h5 : (k * r) ^ 2 ≤ r ^ 2 * hi ^ 2 := by
      rw [mul_pow, mul_comm]
      exact mul_le_mul_of_nonneg_left (pow_le_pow_left₀ hk1.le hk.2 2) (sq_nonneg r)
    exact mul_le_mul_of_nonneg_left (by linarith) (div_nonneg (hP k hk.1 hk.2) (by positivity))

theorem delta_pos (P : ℝ → ℝ) (lo hi : ℝ) (h1 : 0 < lo) (h2 : lo ≤ 1e-5) (h3 : 10 < hi) (hP : ∀ k, lo ≤ k → k ≤ hi → 0 < P k) (hc : ContinuousOn P (Set.Icc lo hi)) :
    docSigmasq P 1e-5 10 < docSigmasq P lo hi := by
  have c1 : ContinuousOn P (Set.uIcc lo 1e-5) := hc.mono (by rw [Set.uIcc_of_le h2]; exact Set.Icc_subset_Icc le_rfl (by linarith))
  have c2 : ContinuousOn P (Set.uIcc 1e-5 10) := hc.mono (by rw [Set.uIcc_of_le (by norm_num)]; exact Set.Icc_subset_Icc h2 h3.le)
  have c3 : ContinuousOn P (Set.uIcc 10 hi) := hc.mono (by rw [Set.uIcc_of_le h3.le]; exact Set.Icc_subset_Icc (by linarith) le_rfl)
  unfold docSigmasq
  rw [← intervalIntegral.integral_add_adjacent_intervals c1.intervalIntegrable (c2.intervalIntegrable.trans c3.intervalIntegrable),
    ← intervalIntegral.integral_add_adjacent_intervals c2.intervalIntegrable c3.intervalIntegrable]
  have p1 : 0 ≤ ∫ k in lo..1e-5, P k := intervalIntegral.integral_nonneg h2 fun k hk => (hP k hk.1 (by linarith [hk.2])).le
  have p3 : 0 < ∫ k in (10 : ℝ)..hi, P k :=
    intervalIntegral.intervalIntegral_pos_of_pos_on c3.intervalIntegrable (fun k hk => hP k (by linarith [hk.1]) hk.2.le) h3
  exact mul_lt_mul_of_pos_left (by linarith) (by positivity)

/-- The claim of the docstring of `_setup` about `X` fails: near zero separation the stored `X` is negative, for every positive power. -/
theorem setup_X_negative (P : ℝ → ℝ) (lo hi : ℝ) (h1 : 0 < lo) (h2 : lo ≤ 1e-5) (h3 : 10 < hi) (hP : ∀ k, lo ≤ k → k ≤ hi → 0 < P k)
    (hc : ContinuousOn P (Set.Icc lo hi)) : ∃ r0 > 0, ∀ r, 0 < r → r < r0 → (setup P lo hi).X r < 0 ∧ 0 ≤ docX P lo hi r := by
  have hd := delta_pos P lo hi h1 h2 h3 hP hc
  have hlh : lo ≤ hi := by linarith
  have hpos : 0 < hi := by linarith
  have hc' : ContinuousOn P (Set.uIcc lo hi) := by rwa [Set.uIcc_of_le hlh]
  have hs : 0 ≤ docSigmasq P 1e-5 10 := mul_nonneg (by positivity)
    (intervalIntegral.integral_nonneg (by norm_num) fun k hk => (hP k (by linarith [hk.1]) (by linarith [hk.2])).le)
  have hC : 0 < hi ^ 2 * (3 / 2 * docSigmasq P lo hi) := mul_pos (by positivity) (by linarith)
  refine ⟨sqrt ((docSigmasq P lo hi - docSigmasq P 1e-5 10) / (hi ^ 2 * (3 / 2 * docSigmasq P lo hi))), sqrt_pos.2 (div_pos (by linarith) hC), fun r hr hlt => ⟨?_, ?_⟩⟩
  · rw [setup_X P lo hi r h1 hpos hr.ne' hc']
    have h4 := docX_le P lo hi r h1 hlh hr.ne' (fun k a b => (hP k a b).le) hc'
    have h5 := (lt_sqrt hr.le).1 hlt
    rw [lt_div_iff₀ hC] at h5
    linarith
  · exact docX_nonneg P lo hi r h1 hlh hr.ne' fun k a b => (hP k a b).le

/-! ## The sum over the orders -/

/-- The values that the docstrings describe. -/
noncomputable def docState (P : ℝ → ℝ) (lo hi : ℝ) : State := ⟨P, docX P lo hi, docY P lo hi, docSigmasq P lo hi, ∫ q in (1e-6 : ℝ)..100, (P q / q) ^ 2⟩

theorem full_eq_sum (s : State) (a b : ℝ) (nmax : ℕ) (k : ℝ) :
    s.full a b nmax k = ∑ n ∈ Finset.range (nmax + 1), (zeldovichPowerIntegral a b n).apply (s.f k n) k := by
  have : ∀ (l : List ℕ) (c : ℝ) (g : ℕ → ℝ), l.foldl (fun P n => P + g n) c = c + (l.map g).sum := by
    intro l
    induction l with
    | nil => intro c g; simp
    | cons x l ih => intro c g; simp only [List.foldl_cons, ih, List.map_cons, List.sum_cons]; ring
  unfold State.full
  rw [this, zero_add]
  rfl

/-- Because of the range of the dispersion, all the powers above `k = 5e-3` are too large by the factor `exp(k^2 delta)`. -/
theorem full_ratio (P : ℝ → ℝ) (lo hi a b k : ℝ) (nmax : ℕ) (h1 : 0 < lo) (h2 : 0 < hi) (hP : ContinuousOn P (Set.uIcc lo hi)) (ha : 0 < a) (hb : 0 < b) :
    (setup P lo hi).full a b nmax k = exp (k ^ 2 * (docSigmasq P lo hi - docSigmasq P 1e-5 10)) * (docState P lo hi).full a b nmax k := by
  rw [full_eq_sum, full_eq_sum, Finset.mul_sum]
  refine Finset.sum_congr rfl fun n _ => ?_
  rw [power_integral_doc _ a b k n ha hb, power_integral_doc _ a b k n ha hb, mul_left_comm, ← intervalIntegral.integral_const_mul (exp _)]
  congr 1
  refine intervalIntegral.integral_congr fun r hr => ?_
  have hr := pos_of_uIcc ha hb hr
  have e : (setup P lo hi).f k n r = exp (k ^ 2 * (docSigmasq P lo hi - docSigmasq P 1e-5 10)) * (docState P lo hi).f k n r := by
    unfold State.f
    rw [setup_sigmasq, setup_Y P lo hi r h1 h2 hr.ne' hP, setup_X P lo hi r h1 h2 hr.ne' hP]
    dsimp only [docState]
    have e1 : exp (-0.5 * k ^ 2 * (docX P lo hi r - 2 * (docSigmasq P lo hi - docSigmasq P 1e-5 10) + docY P lo hi r))
        = exp (k ^ 2 * (docSigmasq P lo hi - docSigmasq P 1e-5 10)) * exp (-0.5 * k ^ 2 * (docX P lo hi r + docY P lo hi r)) := by
      rw [← exp_add]; congr 1; ring
    have e2 : exp (-k ^ 2 * docSigmasq P 1e-5 10) = exp (k ^ 2 * (docSigmasq P lo hi - docSigmasq P 1e-5 10)) * exp (-k ^ 2 * docSigmasq P lo hi) := by
      rw [← exp_add]; congr 1; ring
    rw [e1, e2]
    split <;> ring
  rw [e]
  ring

/-- The sum over all orders: `Σ (kY/r)^n j_n(kr) = 1/2 ∫ cos(k r mu) exp(k^2 Y (1 - mu^2) / 2) dmu`. -/
theorem orders_sum (B x : ℝ) (hx : x ≠ 0) :
    HasSum (fun n : ℕ => (2 * B / x) ^ n * sph n x) (1 / 2 * ∫ t in (-1 : ℝ)..1, cos (x * t) * exp (B * (1 - t ^ 2))) := by
  have key : HasSum (fun n : ℕ => ∫ t in (-1 : ℝ)..1, cos (x * t) * ((B * (1 - t ^ 2)) ^ n / (n.factorial : ℝ)))
      (∫ t in (-1 : ℝ)..1, cos (x * t) * exp (B * (1 - t ^ 2))) := by
    refine intervalIntegral.hasSum_integral_of_dominated_convergence (fun n _ => |B| ^ n / (n.factorial : ℝ)) ?_ ?_ ?_ ?_ ?_
    · intro n
      exact (Continuous.aestronglyMeasurable (by fun_prop))
    · intro n
      refine Filter.Eventually.of_forall fun t ht => ?_
      rw [Set.uIoc_of_le (by norm_num)] at ht
      rw [norm_mul, norm_eq_abs, norm_eq_abs, abs_div, abs_pow, abs_mul, abs_of_nonneg (show (0 : ℝ) ≤ n.factorial by positivity)]
      have h1 : |1 - t ^ 2| ≤ 1 := by rw [abs_le]; constructor <;> nlinarith [ht.1, ht.2]
      have h2 : (|B| * |1 - t ^ 2|) ^ n ≤ |B| ^ n := pow_le_pow_left₀ (by positivity) (mul_le_of_le_one_right (abs_nonneg B) h1) n
      calc |cos (x * t)| * ((|B| * |1 - t ^ 2|) ^ n / n.factorial) ≤ 1 * ((|B| * |1 - t ^ 2|) ^ n / n.factorial) :=
            mul_le_mul_of_nonneg_right (abs_cos_le_one _) (by positivity)
        _ ≤ _ := by rw [one_mul]; exact div_le_div_of_nonneg_right h2 (by positivity)
    · exact Filter.Eventually.of_forall fun t _ => summable_pow_div_factorial |B|
    · exact intervalIntegrable_const
    · refine Filter.Eventually.of_forall fun t _ => ?_
      refine HasSum.mul_left _ ?_
      rw [exp_eq_exp_ℝ]
      exact NormedSpace.expSeries_div_hasSum_exp (B * (1 - t ^ 2))
  have e : (fun n : ℕ => (2 * B / x) ^ n * sph n x) = fun n : ℕ => 1 / 2 * ∫ t in (-1 : ℝ)..1, cos (x * t) * ((B * (1 - t ^ 2)) ^ n / (n.factorial : ℝ)) := by
    funext n
    have e1 : ∫ t in (-1 : ℝ)..1, cos (x * t) * ((B * (1 - t ^ 2)) ^ n / (n.factorial : ℝ)) = B ^ n / (n.factorial : ℝ) * poisson n x := by
      unfold poisson
      rw [← intervalIntegral.integral_const_mul]
      refine intervalIntegral.integral_congr fun t _ => ?_
      rw [mul_pow]
      ring
    rw [e1, sph_poisson n x hx, div_pow, mul_pow, pow_succ]
    have hf : ((n.factorial : ℕ) : ℝ) ≠ 0 := by exact_mod_cast n.factorial_ne_zero
    field_simp
  rw [e]
  exact key.mul_left (1 / 2)

theorem order_bound (B x : ℝ) (hx : x ≠ 0) (n : ℕ) : |(2 * B / x) ^ n * sph n x| ≤ |B| ^ n / (n.factorial : ℝ) := by
  have hf : (0 : ℝ) < n.factorial := by exact_mod_cast n.factorial_pos
  have e : (2 * B / x) ^ n * sph n x = B ^ n / (n.factorial : ℝ) * (poisson n x / 2) := by
    rw [sph_poisson n x hx, div_pow, mul_pow, pow_succ]
    field_simp
  have h0 : poisson n 0 ≤ 2 := by
    unfold poisson
    have : (2 : ℝ) = ∫ t in (-1 : ℝ)..1, 1 := by simp; norm_num
    rw [this]
    refine intervalIntegral.integral_mono_on (by norm_num) (by apply Continuous.intervalIntegrable; fun_prop) (by simp) fun t ht => ?_
    simp only [zero_mul, cos_zero, one_mul]
    exact pow_le_one₀ (by nlinarith [ht.1, ht.2]) (by nlinarith [sq_nonneg t])
  rw [e, abs_mul, abs_div, abs_pow, abs_of_pos hf]
  have h1 : |poisson n x / 2| ≤ 1 := by
    rw [abs_div, abs_of_pos (show (0 : ℝ) < 2 by norm_num)]
    linarith [poisson_abs_le n x]
  exact mul_le_of_le_one_right (by positivity) h1

/-- The Zel'dovich power over a range of separations, with the integral over the angle between the wave vector and the separation. -/
noncomputable def exactPower (s : State) (a b k : ℝ) : ℝ :=
  2 * π * ∫ r in a..b, r ^ 2 * ∫ t in (-1 : ℝ)..1, cos (k * r * t) * (exp (-(1 / 2) * k ^ 2 * (s.X r + s.Y r * t ^ 2)) - exp (-(k ^ 2) * s.sigmasq))

/-- The integrand over the separations, up to an order. -/
noncomputable def upTo (s : State) (k : ℝ) (n : ℕ) (r : ℝ) : ℝ :=
  r ^ 2 * (exp (-(1 / 2) * k ^ 2 * (s.X r + s.Y r)) * ∑ i ∈ Finset.range n, (2 * (k ^ 2 * s.Y r / 2) / (k * r)) ^ i * sph i (k * r) - exp (-(k ^ 2) * s.sigmasq) * sph 0 (k * r))

theorem sph_continuousOn (n : ℕ) : ContinuousOn (sph n) {x | x ≠ 0} := by
  refine ContinuousOn.congr (f := fun x => x ^ n / (2 ^ (n + 1) * (n.factorial : ℝ)) * poisson n x) ?_ fun x hx => sph_poisson n x hx
  have := poisson_continuous n
  fun_prop

theorem full_upTo (s : State) (a b k : ℝ) (nmax : ℕ) (ha : 0 < a) (hb : 0 < b) (hk : k ≠ 0) (hX : ContinuousOn s.X (Set.uIcc a b)) (hY : ContinuousOn s.Y (Set.uIcc a b)) :
    s.full a b nmax k = 4 * π * ∫ r in a..b, upTo s k (nmax + 1) r := by
  have hs : ∀ n, ContinuousOn (fun r => sph n (k * r)) (Set.uIcc a b) := fun n =>
    (sph_continuousOn n).comp (by fun_prop) fun r hr => mul_ne_zero hk (pos_of_uIcc ha hb hr).ne'
  have hi : ∀ n, IntervalIntegrable (fun r => r ^ 2 * (s.f k n r / r ^ n) * sph n (k * r)) MeasureTheory.volume a b := by
    intro n
    apply ContinuousOn.intervalIntegrable
    refine ContinuousOn.mul (ContinuousOn.mul (by fun_prop) (ContinuousOn.div ?_ (by fun_prop) fun r hr => pow_ne_zero n (pos_of_uIcc ha hb hr).ne')) (hs n)
    unfold State.f
    split <;> fun_prop
  rw [full_eq_sum]
  simp only [power_integral_doc _ a b k _ ha hb]
  rw [← Finset.mul_sum, ← intervalIntegral.integral_finset_sum fun n _ => hi n]
  congr 1
  refine intervalIntegral.integral_congr fun r hr => ?_
  have hr := pos_of_uIcc ha hb hr
  unfold upTo
  rw [Finset.sum_range_succ', Finset.sum_range_succ' (fun i => (2 * (k ^ 2 * s.Y r / 2) / (k * r)) ^ i * sph i (k * r))]
  have e : ∀ n, r ^ 2 * (s.f k (n + 1) r / r ^ (n + 1)) * sph (n + 1) (k * r)
      = r ^ 2 * exp (-(1 / 2) * k ^ 2 * (s.X r + s.Y r)) * ((2 * (k ^ 2 * s.Y r / 2) / (k * r)) ^ (n + 1) * sph (n + 1) (k * r)) := by
    intro n
    unfold State.f
    rw [if_pos (Nat.succ_pos n), show (-0.5 : ℝ) = -(1 / 2) by norm_num, show 2 * (k ^ 2 * s.Y r / 2) / (k * r) = k * s.Y r / r by field_simp, div_pow]
    ring
  have e0 : s.f k 0 r = exp (-(1 / 2) * k ^ 2 * (s.X r + s.Y r)) - exp (-(k ^ 2) * s.sigmasq) := by
    unfold State.f
    rw [if_neg (lt_irrefl 0), show (-0.5 : ℝ) = -(1 / 2) by norm_num]
  simp only [e, e0, ← Finset.mul_sum, pow_zero]
  ring

/-- With more and more orders the sum of the code goes to the Zel'dovich power. -/
theorem full_tendsto (s : State) (a b k : ℝ) (ha : 0 < a) (hb : 0 < b) (hk : k ≠ 0) (hX : ContinuousOn s.X (Set.uIcc a b)) (hY : ContinuousOn s.Y (Set.uIcc a b)) :
    Filter.Tendsto (fun nmax => s.full a b nmax k) Filter.atTop (nhds (exactPower s a b k)) := by
  have hs : ∀ n, ContinuousOn (fun r => sph n (k * r)) (Set.uIcc a b) := fun n =>
    (sph_continuousOn n).comp (by fun_prop) fun r hr => mul_ne_zero hk (pos_of_uIcc ha hb hr).ne'
  have ex : exactPower s a b k = 4 * π * ∫ r in a..b, r ^ 2 * (exp (-(1 / 2) * k ^ 2 * (s.X r + s.Y r)) *
      (1 / 2 * ∫ t in (-1 : ℝ)..1, cos (k * r * t) * exp (k ^ 2 * s.Y r / 2 * (1 - t ^ 2))) - exp (-(k ^ 2) * s.sigmasq) * sph 0 (k * r)) := by
    unfold exactPower
    rw [← intervalIntegral.integral_const_mul, ← intervalIntegral.integral_const_mul]
    refine intervalIntegral.integral_congr fun r hr => ?_
    have hr := pos_of_uIcc ha hb hr
    have e1 : (∫ t in (-1 : ℝ)..1, cos (k * r * t) * (exp (-(1 / 2) * k ^ 2 * (s.X r + s.Y r * t ^ 2)) - exp (-(k ^ 2) * s.sigmasq)))
        = exp (-(1 / 2) * k ^ 2 * (s.X r + s.Y r)) * (∫ t in (-1 : ℝ)..1, cos (k * r * t) * exp (k ^ 2 * s.Y r / 2 * (1 - t ^ 2)))
          - exp (-(k ^ 2) * s.sigmasq) * poisson 0 (k * r) := by
      unfold poisson
      rw [← intervalIntegral.integral_const_mul, ← intervalIntegral.integral_const_mul, ← intervalIntegral.integral_sub
        (by apply Continuous.intervalIntegrable; fun_prop) (by apply Continuous.intervalIntegrable; fun_prop)]
      refine intervalIntegral.integral_congr fun t _ => ?_
      have : exp (-(1 / 2) * k ^ 2 * (s.X r + s.Y r * t ^ 2)) = exp (-(1 / 2) * k ^ 2 * (s.X r + s.Y r)) * exp (k ^ 2 * s.Y r / 2 * (1 - t ^ 2)) := by
        rw [← exp_add]; congr 1; ring
      rw [this]; ring
    rw [e1, sph_zero_eq _ (mul_ne_zero hk hr.ne')]
    ring
  simp only [full_upTo s a b k _ ha hb hk hX hY]
  rw [ex]
  refine Filter.Tendsto.const_mul _ ?_
  refine intervalIntegral.tendsto_integral_filter_of_dominated_convergence
    (fun r => r ^ 2 * (exp (-(1 / 2) * k ^ 2 * (s.X r + s.Y r)) * exp |k ^ 2 * s.Y r / 2| + exp (-(k ^ 2) * s.sigmasq) * |sph 0 (k * r)|)) ?_ ?_ ?_ ?_
  · refine Filter.Eventually.of_forall fun n => ?_
    apply ContinuousOn.aestronglyMeasurable ?_ measurableSet_uIoc
    refine ContinuousOn.mono ?_ Set.uIoc_subset_uIcc
    unfold upTo
    refine ContinuousOn.mul (by fun_prop) (ContinuousOn.sub (ContinuousOn.mul (by fun_prop) ?_) (continuousOn_const.mul (hs 0)))
    refine continuousOn_finset_sum _ fun i _ => ContinuousOn.mul (ContinuousOn.pow (ContinuousOn.div (by fun_prop) (by fun_prop) ?_) i) (hs i)
    exact fun r hr => mul_ne_zero hk (pos_of_uIcc ha hb hr).ne'
  · refine Filter.Eventually.of_forall fun n => Filter.Eventually.of_forall fun r hr => ?_
    have hr := pos_of_uIcc ha hb (Set.uIoc_subset_uIcc hr)
    have hkr : k * r ≠ 0 := mul_ne_zero hk hr.ne'
    unfold upTo
    rw [norm_eq_abs, abs_mul, abs_of_nonneg (sq_nonneg r)]
    refine mul_le_mul_of_nonneg_left ?_ (sq_nonneg r)
    refine (abs_sub _ _).trans (add_le_add ?_ ?_)
    · rw [abs_mul, abs_exp]
      refine mul_le_mul_of_nonneg_left ?_ (exp_pos _).le
      refine (Finset.abs_sum_le_sum_abs _ _).trans ((Finset.sum_le_sum fun i _ => order_bound _ _ hkr i).trans ?_)
      exact Real.sum_le_exp_of_nonneg (abs_nonneg _) _
    · rw [abs_mul, abs_exp]
  · apply ContinuousOn.intervalIntegrable
    have := (hs 0).abs
    fun_prop
  · refine Filter.Eventually.of_forall fun r hr => ?_
    have hr := pos_of_uIcc ha hb (Set.uIoc_subset_uIcc hr)
    have h := (orders_sum (k ^ 2 * s.Y r / 2) (k * r) (mul_ne_zero hk hr.ne')).tendsto_sum_nat
    have h := h.comp (Filter.tendsto_add_atTop_nat 1)
    unfold upTo
    exact ((h.const_mul _).sub_const _).const_mul _

/-! ## Small wavenumbers -/

theorem exp_neg_bounds (y : ℝ) (hy : 0 ≤ y) : exp (-y) ≤ 1 - y + y ^ 2 / 2 ∧ 1 - y + y ^ 2 / 2 - y ^ 3 / 6 ≤ exp (-y) := by
  have d : ∀ y : ℝ, HasDerivAt (fun y => exp (-y)) (-exp (-y)) y := fun y => by
    have := (hasDerivAt_neg y).exp
    simpa using this
  have mono : ∀ (g g' : ℝ → ℝ), (∀ y, HasDerivAt g (g' y) y) → (∀ y, 0 ≤ y → 0 ≤ g' y) → ∀ y, 0 ≤ y → g 0 ≤ g y := by
    intro g g' h1 h2 y hy
    refine monotoneOn_of_deriv_nonneg (convex_Ici (0 : ℝ)) (fun z _ => (h1 z).continuousAt.continuousWithinAt)
      (fun z _ => (h1 z).differentiableAt.differentiableWithinAt) (fun z hz => ?_) (Set.mem_Ici.2 le_rfl) (Set.mem_Ici.2 hy) hy
    rw [interior_Ici] at hz
    rw [(h1 z).deriv]
    exact h2 z (le_of_lt hz)
  have s1 : ∀ y, 0 ≤ y → exp (-y) ≤ 1 - y + y ^ 2 / 2 := by
    intro y hy
    have := mono (fun y => 1 - y + y ^ 2 / 2 - exp (-y)) (fun y => -1 + y + exp (-y))
      (fun z => by
        refine ((((hasDerivAt_id z).const_sub 1).add ((hasDerivAt_pow 2 z).div_const 2)).sub (d z)).congr_deriv ?_
        push_cast; ring)
      (fun z _ => by linarith [add_one_le_exp (-z)]) y hy
    simp only [neg_zero, exp_zero] at this
    linarith
  refine ⟨s1 y hy, ?_⟩
  have := mono (fun y => exp (-y) - (1 - y + y ^ 2 / 2 - y ^ 3 / 6)) (fun y => 1 - y + y ^ 2 / 2 - exp (-y))
    (fun z => by
      refine ((d z).sub ((((hasDerivAt_id z).const_sub 1).add ((hasDerivAt_pow 2 z).div_const 2)).sub ((hasDerivAt_pow 3 z).div_const 6))).congr_deriv ?_
      push_cast; ring)
    (fun z hz => by linarith [s1 z hz]) y hy
  simp only [neg_zero, exp_zero] at this
  linarith

/-- `Q_3` of the docstring of `_low_k_approx`, over the wavenumbers from 1e-6 to 100. -/
noncomputable def docQ3 (P : ℝ → ℝ) (k : ℝ) : ℝ := k ^ 4 / (10 * π ^ 2) * ∫ q in (1e-6 : ℝ)..100, P q ^ 2 / q ^ 2

/-- The low-k result is `exp(-k^2 sigma^2) P_L + Q_3/2` up to the third order in `k^2 sigma^2`, from above. -/
theorem lowK_spec (P : ℝ → ℝ) (lo hi k : ℝ) (hP : ∀ q, 0 ≤ P q) :
    let e := exp (-(k ^ 2 * docSigmasq P 1e-5 10)) * P k + docQ3 P k / 2
    e ≤ (setup P lo hi).lowK k ∧ (setup P lo hi).lowK k ≤ e + (k ^ 2 * docSigmasq P 1e-5 10) ^ 3 / 6 * P k := by
  have hs : 0 ≤ docSigmasq P 1e-5 10 := mul_nonneg (by positivity) (intervalIntegral.integral_nonneg (by norm_num) fun k _ => hP k)
  have hb := exp_neg_bounds (k ^ 2 * docSigmasq P 1e-5 10) (by positivity)
  have e : (setup P lo hi).lowK k = (1 - k ^ 2 * docSigmasq P 1e-5 10 + (k ^ 2 * docSigmasq P 1e-5 10) ^ 2 / 2) * P k + docQ3 P k / 2 := by
    unfold State.lowK
    dsimp only
    rw [setup_sigmasq]
    unfold docQ3
    simp only [← div_pow]
    have : (setup P lo hi).Q3 = ∫ q in (1e-6 : ℝ)..100, (P q / q) ^ 2 := rfl
    have hp : (setup P lo hi).Plin = P := rfl
    rw [this, hp]
    ring
  intro e'
  rw [e]
  constructor
  · have := mul_le_mul_of_nonneg_right hb.1 (hP k)
    dsimp only [e']; linarith
  · have := mul_le_mul_of_nonneg_right hb.2 (hP k)
    dsimp only [e']; linarith

/-! ## Calls -/

/-- An array gives the values of its elements. -/
theorem call_array (s : State) (a b : ℝ) (nmax : ℕ) (l : List ℝ) (hl : l ≠ []) :
    ∃ r, s.call a b nmax (.array l) = .ok (.array r) ∧ r.length = l.length
      ∧ ∀ (i : Nat) (k : ℝ), l[i]? = some k → ∃ v, s.call a b nmax (.scalar k) = .ok (.scalar v) ∧ r[i]? = some v := by
  cases l with
  | nil => exact absurd rfl hl
  | cons x l =>
    refine ⟨(x :: l).map (s.pzelAtK a b nmax), rfl, by simp, fun i k h => ⟨s.pzelAtK a b nmax k, rfl, ?_⟩⟩
    rw [List.getElem?_map, h]; rfl

/-- An array without elements is refused. -/
theorem call_empty (s : State) (a b : ℝ) (nmax : ℕ) : s.call a b nmax (.array []) = .error .valueError := rfl

/-- A number: the approximation below 5e-3, otherwise the sum, which is the docstring's times `exp(k^2 delta)`. -/
theorem call_scalar (P : ℝ → ℝ) (lo hi a b k : ℝ) (nmax : ℕ) (h1 : 0 < lo) (h2 : 0 < hi) (hP : ContinuousOn P (Set.uIcc lo hi)) (ha : 0 < a) (hb : 0 < b) :
    (k < 0.005 → (setup P lo hi).call a b nmax (.scalar k) = .ok (.scalar ((setup P lo hi).lowK k)))
    ∧ (0.005 ≤ k → (setup P lo hi).call a b nmax (.scalar k)
        = .ok (.scalar (exp (k ^ 2 * (docSigmasq P lo hi - docSigmasq P 1e-5 10)) * (docState P lo hi).full a b nmax k))) := by
  constructor
  · intro h
    simp only [State.call, vectorizeIfNeeded, State.pzelAtK]
    rw [if_pos (by norm_num at h ⊢; linarith)]
  · intro h
    simp only [State.call, vectorizeIfNeeded, State.pzelAtK]
    rw [if_neg (by norm_num at h ⊢; linarith), full_ratio P lo hi a b k nmax h1 h2 hP ha hb]

/-- The factor exceeds 1 for every positive power, when the transforms reach beyond the wavenumber 10 (the grid ends at 100). -/
theorem factor_gt_one (P : ℝ → ℝ) (lo hi k : ℝ) (h1 : 0 < lo) (h2 : lo ≤ 1e-5) (h3 : 10 < hi) (hP : ∀ k, lo ≤ k → k ≤ hi → 0 < P k)
    (hc : ContinuousOn P (Set.Icc lo hi)) (hk : 0.005 ≤ k) : 1 < exp (k ^ 2 * (docSigmasq P lo hi - docSigmasq P 1e-5 10)) := by
  have := delta_pos P lo hi h1 h2 h3 hP hc
  have hk0 : 0 < k := by norm_num at hk; linarith
  exact one_lt_exp_iff.2 (mul_pos (by positivity) (by linarith))

/-- Cases: a flat power on the range of the grid. The dispersion of the docstring is `100/(6 pi^2)`, that of the code a tenth, and `X` is negative near zero. -/
example : ∃ r0 > 0, ∀ r, 0 < r → r < r0 → (setup (fun _ => 1) 1e-5 100).X r < 0 ∧ 0 ≤ docX (fun _ => 1) 1e-5 100 r :=
  setup_X_negative _ _ _ (by norm_num) le_rfl (by norm_num) (fun _ _ _ => one_pos) continuousOn_const

example (k : ℝ) (hk : 0.005 ≤ k) : 1 < exp (k ^ 2 * (docSigmasq (fun _ => 1) 1e-5 100 - docSigmasq (fun _ => 1) 1e-5 10)) :=
  factor_gt_one _ _ _ k (by norm_num) le_rfl (by norm_num) (fun _ _ _ => one_pos) continuousOn_const hk

example : Filter.Tendsto (fun nmax => (⟨fun _ => 1, fun _ => 2, fun r => r, 1, 1⟩ : State).full 1 2 nmax 3) Filter.atTop
    (nhds (exactPower ⟨fun _ => 1, fun _ => 2, fun r => r, 1, 1⟩ 1 2 3)) :=
  full_tendsto _ 1 2 3 (by norm_num) (by norm_num) (by norm_num) continuousOn_const continuousOn_id

end NBK.Zel
