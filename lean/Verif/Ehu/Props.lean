import Verif.Ehu.Lemmas
import Mathlib.Tactic.FunProp
import Mathlib.Analysis.SpecialFunctions.Log.Deriv
import Mathlib.Analysis.Complex.ExponentialBounds

set_option linter.unusedSimpArgs false
/-!
# C98: the fitting formulas of Eisenstein & Hu

The transfer functions are normalised to one on large scales, and the smooth one decreases with the wavenumber.
The coefficient `beta_c` is not that of the paper.
-/
noncomputable section
namespace NBK.Ehu
open Real Filter Topology

/-! ## The smooth transfer function -/

theorem alpha_mix_pos {a x : ℝ} (ha : 0 < a) (hx : 0 ≤ x) : 0 < a + (1 - a) / (1 + x) := by
  have : a + (1 - a) / (1 + x) = (1 + a * x) / (1 + x) := by field_simp; ring
  rw [this]; positivity

theorem qEff_eq (c : Cosmo) (v : c.Valid) (k : ℝ) :
    qEff c k = k * (c.h / (13.41 * c.kEq)) /
      (c.alphaGamma + (1 - c.alphaGamma) / (1 + (0.43 * (k * c.soundHorizonFit)) ^ 4)) := by
  have h1 := Omh2_pos v; have h2 := v.2.2.1; have h3 := kEq_pos v
  simp only [qEff]
  have e : k * c.h * c.soundHorizonFit / c.h = k * c.soundHorizonFit := by field_simp
  rw [e]
  generalize c.alphaGamma + (1 - c.alphaGamma) / (1 + (0.43 * (k * c.soundHorizonFit)) ^ 4) = g
  field_simp

theorem qEff_pos {c : Cosmo} (v : c.Valid) (ha : 0 < c.alphaGamma) {k : ℝ} (hk : 0 < k) : 0 < qEff c k := by
  have h2 := v.2.2.1; have h3 := kEq_pos v
  rw [qEff_eq c v]
  have := alpha_mix_pos ha (show 0 ≤ (0.43 * (k * c.soundHorizonFit)) ^ 4 by positivity)
  positivity

theorem log2e_ge {q : ℝ} (hq : 0 ≤ q) : 1 < log (2 * exp 1 + 1.8 * q) := by
  have he := exp_pos 1
  rw [lt_log_iff_exp_lt (by positivity)]
  nlinarith

theorem tNoWiggle_mem {q : ℝ} (hq : 0 < q) : 0 < tNoWiggle q ∧ tNoWiggle q < 1 := by
  have h := log2e_ge hq.le
  simp only [tNoWiggle]
  have : 0 < (14.2 + 731 / (1 + 62.5 * q)) * q ^ 2 := by positivity
  constructor
  · positivity
  · rw [div_lt_one (by linarith)]; linarith

/-- The smooth transfer function lies between 0 and 1, and is below 1 at every positive wavenumber. -/
theorem noWiggle_range (c : Cosmo) (v : c.Valid) (ha : 0 < c.alphaGamma) (k : ℝ) :
    0 < noWiggle c k ∧ noWiggle c k ≤ 1 ∧ (0 < k → noWiggle c k < 1) := by
  unfold noWiggle
  split
  · rename_i hk
    obtain ⟨a, b⟩ := tNoWiggle_mem (qEff_pos v ha hk)
    exact ⟨a, b.le, fun _ => b⟩
  · exact ⟨by norm_num, le_rfl, fun h => absurd h (by assumption)⟩

theorem log_scale {q q' : ℝ} (hq : 0 < q) (h : q ≤ q') :
    log (2 * exp 1 + 1.8 * q') * q ≤ log (2 * exp 1 + 1.8 * q) * q' := by
  have he := exp_pos 1
  have hL := log2e_ge hq.le
  have hq' : 0 < q' := lt_of_lt_of_le hq h
  obtain ⟨r, hr⟩ : ∃ r, r = q' / q := ⟨_, rfl⟩
  have hr1 : 1 ≤ r := by rw [hr, le_div_iff₀ hq]; linarith
  have e : q' = r * q := by rw [hr]; field_simp
  have h1 : log (2 * exp 1 + 1.8 * q') ≤ log (r * (2 * exp 1 + 1.8 * q)) := by
    apply log_le_log (by positivity)
    rw [e]; nlinarith
  rw [log_mul (by positivity) (by positivity)] at h1
  have h2 : log r ≤ r - 1 := log_le_sub_one_of_pos (by linarith)
  have h3 : log (2 * exp 1 + 1.8 * q') ≤ r * log (2 * exp 1 + 1.8 * q) := by nlinarith
  calc _ ≤ r * log (2 * exp 1 + 1.8 * q) * q := by gcongr
    _ = _ := by rw [e]; ring

theorem c0_mono {q q' : ℝ} (hq : 0 < q) (h : q < q') :
    (14.2 + 731 / (1 + 62.5 * q)) * q < (14.2 + 731 / (1 + 62.5 * q')) * q' := by
  have hq' : 0 < q' := hq.trans h
  have : 731 / (1 + 62.5 * q) * q ≤ 731 / (1 + 62.5 * q') * q' := by
    rw [div_mul_eq_mul_div, div_mul_eq_mul_div, div_le_div_iff₀ (by positivity) (by positivity)]
    nlinarith
  nlinarith

theorem tNoWiggle_anti {q q' : ℝ} (hq : 0 < q) (h : q < q') : tNoWiggle q' < tNoWiggle q := by
  have hq' : 0 < q' := hq.trans h
  have hL := log2e_ge hq.le
  have hL' := log2e_ge hq'.le
  have h1 := log_scale hq h.le
  have h2 := c0_mono hq h
  simp only [tNoWiggle]
  have p : 0 < 14.2 + 731 / (1 + 62.5 * q) := by positivity
  have p' : 0 < 14.2 + 731 / (1 + 62.5 * q') := by positivity
  generalize log (2 * exp 1 + 1.8 * q) = L at *
  generalize log (2 * exp 1 + 1.8 * q') = L' at *
  generalize 14.2 + 731 / (1 + 62.5 * q) = C at *
  generalize 14.2 + 731 / (1 + 62.5 * q') = C' at *
  rw [div_lt_div_iff₀ (by positivity) (by positivity)]
  have a : (L' * q) * (C * q) ≤ (L * q') * (C * q) := by gcongr
  have b : (L * q') * (C * q) < (L * q') * (C' * q') := by gcongr
  nlinarith

theorem qEff_mono {c : Cosmo} (v : c.Valid) (ha : 0 < c.alphaGamma) (ha1 : c.alphaGamma ≤ 1) {k k' : ℝ} (hk : 0 < k)
    (h : k < k') : qEff c k < qEff c k' := by
  have h2 := v.2.2.1; have h3 := kEq_pos v
  have hk' := hk.trans h
  rw [qEff_eq c v, qEff_eq c v]
  have p := alpha_mix_pos ha (show 0 ≤ (0.43 * (k * c.soundHorizonFit)) ^ 4 by positivity)
  have p' := alpha_mix_pos ha (show 0 ≤ (0.43 * (k' * c.soundHorizonFit)) ^ 4 by positivity)
  have m : (0.43 * (k * c.soundHorizonFit)) ^ 4 ≤ (0.43 * (k' * c.soundHorizonFit)) ^ 4 := by
    have : k ^ 4 ≤ k' ^ 4 := by gcongr
    have e : ∀ x : ℝ, (0.43 * (x * c.soundHorizonFit)) ^ 4 = x ^ 4 * (0.43 * c.soundHorizonFit) ^ 4 := by intro x; ring
    rw [e, e]; gcongr
  have mm : c.alphaGamma + (1 - c.alphaGamma) / (1 + (0.43 * (k' * c.soundHorizonFit)) ^ 4) ≤
      c.alphaGamma + (1 - c.alphaGamma) / (1 + (0.43 * (k * c.soundHorizonFit)) ^ 4) := by
    have : 0 ≤ 1 - c.alphaGamma := by linarith
    gcongr
  calc _ < k' * (c.h / (13.41 * c.kEq)) / (c.alphaGamma + (1 - c.alphaGamma) / (1 + (0.43 * (k * c.soundHorizonFit)) ^ 4)) := by
        gcongr
    _ ≤ _ := by gcongr

/-- Suppressing small scales (0 < alpha_gamma <= 1), the smooth transfer function never increases with the wavenumber,
and strictly decreases over positive wavenumbers. -/
theorem noWiggle_antitone (c : Cosmo) (v : c.Valid) (ha : 0 < c.alphaGamma) (ha1 : c.alphaGamma ≤ 1) :
    Antitone (noWiggle c) ∧ StrictAntiOn (noWiggle c) (Set.Ioi 0) := by
  have st : ∀ k k' : ℝ, 0 < k → k < k' → noWiggle c k' < noWiggle c k := by
    intro k k' hk h
    have hk' := hk.trans h
    simp only [noWiggle, if_pos hk, if_pos hk']
    exact tNoWiggle_anti (qEff_pos v ha hk) (qEff_mono v ha ha1 hk h)
  refine ⟨?_, fun k hk k' _ h => st k k' hk h⟩
  intro k k' h
  rcases lt_or_eq_of_le h with h | rfl
  · by_cases hk : 0 < k
    · exact (st k k' hk h).le
    · have : noWiggle c k = 1 := if_neg hk
      rw [this]
      exact (noWiggle_range c v ha k').2.1
  · exact le_rfl

theorem tNoWiggle_tendsto : Tendsto tNoWiggle (𝓝 0) (𝓝 1) := by
  have he : (2 * exp 1 + 1.8 * (0 : ℝ)) ≠ 0 := by have := exp_pos 1; positivity
  have hl := log2e_ge (le_refl 0)
  have h : ContinuousAt tNoWiggle 0 := by
    unfold tNoWiggle
    have : ContinuousAt (fun q : ℝ => log (2 * exp 1 + 1.8 * q)) 0 := ContinuousAt.log (by fun_prop) he
    have h2 : ContinuousAt (fun q : ℝ => 14.2 + 731 / (1 + 62.5 * q)) 0 :=
      ContinuousAt.add (by fun_prop) (ContinuousAt.div (by fun_prop) (by fun_prop) (by norm_num))
    refine ContinuousAt.div this (this.add (h2.mul (by fun_prop))) ?_
    simp only [mul_zero, add_zero, ne_eq, OfNat.ofNat_ne_zero, not_false_eq_true, zero_pow] at hl ⊢
    linarith
  have e : tNoWiggle 0 = 1 := by
    simp only [tNoWiggle, mul_zero, add_zero, ne_eq, OfNat.ofNat_ne_zero, not_false_eq_true, zero_pow] at hl ⊢
    exact div_self (by linarith)
  have := h.tendsto
  rwa [e] at this

theorem extend_one {f : ℝ → ℝ} (h : Tendsto f (𝓝[>] 0) (𝓝 1)) :
    Tendsto (fun k => if 0 < k then f k else 1) (𝓝 0) (𝓝 1) := by
  rw [← nhdsLE_sup_nhdsGT, tendsto_sup]
  constructor
  · refine tendsto_const_nhds.congr' ?_
    filter_upwards [self_mem_nhdsWithin] with x hx
    rw [if_neg (not_lt.2 hx)]
  · refine h.congr' ?_
    filter_upwards [self_mem_nhdsWithin] with x hx
    rw [if_pos (show 0 < x from hx)]

/-- The smooth transfer function tends to one on large scales, for every valid cosmology. -/
theorem noWiggle_large_scale (c : Cosmo) (v : c.Valid) : Tendsto (noWiggle c) (𝓝 0) (𝓝 1) := by
  have hq : Tendsto (qEff c) (𝓝 0) (𝓝 0) := by
    have h : ContinuousAt (qEff c) 0 := by
      have : qEff c = fun k => k * (c.h / (13.41 * c.kEq)) /
          (c.alphaGamma + (1 - c.alphaGamma) / (1 + (0.43 * (k * c.soundHorizonFit)) ^ 4)) := by
        funext k; exact qEff_eq c v k
      rw [this]
      refine ContinuousAt.div (by fun_prop) (ContinuousAt.add (by fun_prop)
        (ContinuousAt.div (by fun_prop) (by fun_prop) (by norm_num))) (by norm_num)
    have e : qEff c 0 = 0 := by rw [qEff_eq c v]; simp
    have := h.tendsto
    rwa [e] at this
  exact extend_one ((tNoWiggle_tendsto.comp hq).mono_left nhdsWithin_le_nhds)

theorem tNoWiggle_le {q : ℝ} (hq : 0 < q) : tNoWiggle q ≤ (log (2 * exp 1 + 1.8 * q)) / (14.2 * q ^ 2) := by
  have h := log2e_ge hq.le
  simp only [tNoWiggle]
  gcongr
  have : 0 < 731 / (1 + 62.5 * q) := by positivity
  nlinarith [sq_nonneg q, mul_pos this (pow_pos hq 2)]

/-- The smooth transfer function vanishes on small scales. -/
theorem noWiggle_small_scale (c : Cosmo) (v : c.Valid) (ha : 0 < c.alphaGamma) :
    Tendsto (noWiggle c) atTop (𝓝 0) := by
  have h2 := v.2.2.1; have h3 := kEq_pos v
  have hA : 0 < c.h / (13.41 * c.kEq) := by positivity
  -- q_eff is at least proportional to k
  have hq : Tendsto (qEff c) atTop atTop := by
    have : Tendsto (fun k : ℝ => k * (c.h / (13.41 * c.kEq) / (c.alphaGamma + 1))) atTop atTop :=
      Tendsto.atTop_mul_const (by positivity) tendsto_id
    refine tendsto_atTop_mono' _ ?_ this
    filter_upwards [eventually_gt_atTop 0] with k hk
    rw [qEff_eq c v]
    have p := alpha_mix_pos ha (show 0 ≤ (0.43 * (k * c.soundHorizonFit)) ^ 4 by positivity)
    have : c.alphaGamma + (1 - c.alphaGamma) / (1 + (0.43 * (k * c.soundHorizonFit)) ^ 4) ≤ c.alphaGamma + 1 := by
      have : (1 - c.alphaGamma) / (1 + (0.43 * (k * c.soundHorizonFit)) ^ 4) ≤ 1 := by
        rw [div_le_one (by positivity)]
        have : 0 ≤ (0.43 * (k * c.soundHorizonFit)) ^ 4 := by positivity
        linarith
      linarith
    rw [← mul_div_assoc]
    gcongr
  have hT : Tendsto tNoWiggle atTop (𝓝 0) := by
    have hb : Tendsto (fun q : ℝ => (2 * exp 1 + 1.8) / 14.2 * q⁻¹) atTop (𝓝 0) := by
      simpa using tendsto_inv_atTop_zero.const_mul ((2 * exp 1 + 1.8) / 14.2)
    refine tendsto_of_tendsto_of_tendsto_of_le_of_le' tendsto_const_nhds hb ?_ ?_
    · filter_upwards [eventually_gt_atTop 0] with q hq
      exact (tNoWiggle_mem hq).1.le
    · filter_upwards [eventually_ge_atTop 1] with q hq
      have q0 : 0 < q := by linarith
      have he := exp_pos 1
      refine (tNoWiggle_le q0).trans ?_
      have l : log (2 * exp 1 + 1.8 * q) ≤ (2 * exp 1 + 1.8) * q := by
        refine (log_le_sub_one_of_pos (by positivity)).trans ?_
        nlinarith
      calc _ ≤ (2 * exp 1 + 1.8) * q / (14.2 * q ^ 2) := by gcongr
        _ = _ := by field_simp
  refine (hT.comp hq).congr' ?_
  filter_upwards [eventually_gt_atTop 0] with k hk
  simp [noWiggle, hk]

/-! ## Cold dark matter with wiggles -/

theorem f_mem (x : ℝ) : 0 < 1 / (1 + (x / 5.4) ^ 4) ∧ 1 / (1 + (x / 5.4) ^ 4) ≤ 1 := by
  have : 0 ≤ (x / 5.4) ^ 4 := by positivity
  exact ⟨by positivity, by rw [div_le_one (by positivity)]; linarith⟩

/-- The cold dark matter part lies in (0, 1) for every positive wavenumber and positive coefficients. -/
theorem tC_range {q ks alpha beta : ℝ} (hq : 0 < q) (ha : 0 < alpha) (hb : 0 < beta) :
    0 < tC q ks alpha beta ∧ tC q ks alpha beta < 1 := by
  obtain ⟨f0, f1⟩ := f_mem ks
  have hl := lnBeta_ge hq.le hb.le
  have l0 : 0 < lnBeta q beta := by linarith
  have c1 := cAlpha_pos hq.le one_pos
  have c2 := cAlpha_pos hq.le ha
  have a := frac_pos (q := q) l0 c1.le
  have b := frac_pos (q := q) l0 c2.le
  have a' := frac_lt hq l0 c1
  have b' := frac_lt hq l0 c2
  simp only [tC]
  generalize 1 / (1 + (ks / 5.4) ^ 4) = f at *
  have g : 0 ≤ 1 - f := by linarith
  constructor
  · have := mul_pos f0 a
    have := mul_nonneg g b.le
    linarith
  · have := mul_lt_mul_of_pos_left a' f0
    have := mul_le_mul_of_nonneg_left b'.le g
    linarith

/-- A larger `beta_c` gives a larger transfer function, at every positive wavenumber. -/
theorem tC_strictMono_beta {q ks alpha beta beta' : ℝ} (hq : 0 < q) (ha : 0 < alpha) (hb : 0 < beta) (h : beta < beta') :
    tC q ks alpha beta < tC q ks alpha beta' := by
  obtain ⟨f0, f1⟩ := f_mem ks
  have hl := lnBeta_ge hq.le hb.le
  have l0 : 0 < lnBeta q beta := by linarith
  have he := exp_pos 1
  have ll : lnBeta q beta < lnBeta q beta' := by
    unfold lnBeta
    apply log_lt_log (by positivity)
    gcongr
  have c1 := cAlpha_pos hq.le one_pos
  have c2 := cAlpha_pos hq.le ha
  have a := frac_lt_frac hq l0 ll c1
  have b := frac_lt_frac hq l0 ll c2
  simp only [tC]
  generalize 1 / (1 + (ks / 5.4) ^ 4) = f at *
  have := mul_lt_mul_of_pos_left a f0
  have := mul_le_mul_of_nonneg_left b.le (show 0 ≤ 1 - f by linarith)
  linarith

theorem frac_tendsto {beta alpha A : ℝ} :
    Tendsto (fun k : ℝ => frac (k * A) (lnBeta (k * A) beta) (cAlpha (k * A) alpha)) (𝓝 0) (𝓝 1) := by
  have he := exp_pos 1
  have hl : ContinuousAt (fun k : ℝ => lnBeta (k * A) beta) 0 := by
    unfold lnBeta
    exact ContinuousAt.log (by fun_prop) (by simp)
  have hc : ContinuousAt (fun k : ℝ => cAlpha (k * A) alpha) 0 := by
    unfold cAlpha
    refine ContinuousAt.add (by fun_prop) (ContinuousAt.div (by fun_prop) ?_ ?_)
    · refine ContinuousAt.add (by fun_prop) (ContinuousAt.mul (by fun_prop) ?_)
      exact ContinuousAt.rpow_const (by fun_prop) (Or.inr (by norm_num))
    · norm_num [zero_rpow]
  have h : ContinuousAt (fun k : ℝ => frac (k * A) (lnBeta (k * A) beta) (cAlpha (k * A) alpha)) 0 := by
    unfold frac
    refine ContinuousAt.div hl (hl.add (hc.mul (by fun_prop))) ?_
    simp [lnBeta]
  have := h.tendsto
  simpa [frac, lnBeta] using this

theorem tC_tendsto {A B alpha beta : ℝ} : Tendsto (fun k : ℝ => tC (k * A) (k * B) alpha beta) (𝓝 0) (𝓝 1) := by
  unfold tC
  have hf : Tendsto (fun k : ℝ => 1 / (1 + (k * B / 5.4) ^ 4)) (𝓝 0) (𝓝 1) := by
    have : ContinuousAt (fun k : ℝ => 1 / (1 + (k * B / 5.4) ^ 4)) 0 :=
      ContinuousAt.div (by fun_prop) (by fun_prop) (by norm_num)
    simpa using this.tendsto
  have := (hf.mul (frac_tendsto (beta := beta) (alpha := 1) (A := A))).add
    ((tendsto_const_nhds (x := (1 : ℝ)).sub hf).mul (frac_tendsto (beta := beta) (alpha := alpha) (A := A)))
  simpa using this

theorem damp_le {b x : ℝ} (hb : 0 < b) (hx : 0 < x) : 1 / (1 + (b / x) ^ 3) ≤ (x / b) ^ 3 := by
  rw [div_le_iff₀ (by positivity)]
  have : (x / b) ^ 3 * (b / x) ^ 3 = 1 := by rw [← mul_pow]; field_simp
  have : 0 < (x / b) ^ 3 := by positivity
  nlinarith

theorem tB_tendsto {A s aB bB bN kS : ℝ} (hs : 0 < s) (hb : 0 < bB) (hn : 0 < bN) (hkS : 0 < kS) :
    Tendsto (fun k : ℝ => tB k (k * A) s aB bB bN kS) (𝓝[>] 0) (𝓝 1) := by
  unfold tB
  have h1 : Tendsto (fun k : ℝ => k * (s * (1 + (bN / (k * s)) ^ 3) ^ (-1 / 3 : ℝ))) (𝓝[>] 0) (𝓝 0) := by
    have ub : Tendsto (fun k : ℝ => k * s) (𝓝[>] 0) (𝓝 0) := by
      have : ContinuousAt (fun k : ℝ => k * s) 0 := by fun_prop
      have := this.tendsto
      simp only [zero_mul] at this
      exact this.mono_left nhdsWithin_le_nhds
    refine tendsto_of_tendsto_of_tendsto_of_le_of_le' tendsto_const_nhds ub ?_ ?_
    · filter_upwards [self_mem_nhdsWithin] with k hk
      have hk : 0 < k := hk
      positivity
    · filter_upwards [self_mem_nhdsWithin] with k hk
      have hk : 0 < k := hk
      have : (1 + (bN / (k * s)) ^ 3) ^ (-1 / 3 : ℝ) ≤ 1 := by
        apply rpow_le_one_of_one_le_of_nonpos
        · have : 0 < (bN / (k * s)) ^ 3 := by positivity
          linarith
        · norm_num
      calc _ ≤ k * (s * 1) := by gcongr
        _ = _ := by ring
  have hsinc := sinc_tendsto.comp h1
  have hT0 : Tendsto (fun k : ℝ => frac (k * A) (lnBeta (k * A) 1) (cAlpha (k * A) 1) / (1 + (k * s / 5.2) ^ 2)) (𝓝[>] 0) (𝓝 1) := by
    have d : Tendsto (fun k : ℝ => (1 + (k * s / 5.2) ^ 2)) (𝓝 0) (𝓝 1) := by
      have : ContinuousAt (fun k : ℝ => (1 + (k * s / 5.2) ^ 2)) 0 := by fun_prop
      simpa using this.tendsto
    have := (frac_tendsto (beta := 1) (alpha := 1) (A := A)).div d one_ne_zero
    rw [div_one] at this
    exact this.mono_left nhdsWithin_le_nhds
  have hT2 : Tendsto (fun k : ℝ => aB / (1 + (bB / (k * s)) ^ 3) * exp (-(k / kS) ^ (1.4 : ℝ))) (𝓝[>] 0) (𝓝 0) := by
    have ub : Tendsto (fun k : ℝ => |aB| * (k * s / bB) ^ 3) (𝓝[>] 0) (𝓝 0) := by
      have : ContinuousAt (fun k : ℝ => |aB| * (k * s / bB) ^ 3) 0 := by fun_prop
      have := this.tendsto
      simp only [zero_mul, zero_div, ne_eq, OfNat.ofNat_ne_zero, not_false_eq_true, zero_pow, mul_zero] at this
      exact this.mono_left nhdsWithin_le_nhds
    refine squeeze_zero_norm' ?_ ub
    filter_upwards [self_mem_nhdsWithin] with k hk
    have hk : 0 < k := hk
    rw [norm_eq_abs, abs_mul, abs_div, abs_of_pos (show 0 < 1 + (bB / (k * s)) ^ 3 by positivity), abs_exp]
    have e1 : exp (-(k / kS) ^ (1.4 : ℝ)) ≤ 1 := by
      rw [exp_le_one_iff]
      have : 0 < (k / kS) ^ (1.4 : ℝ) := by positivity
      linarith
    have e2 := damp_le hb (show 0 < k * s by positivity)
    calc _ ≤ |aB| / (1 + (bB / (k * s)) ^ 3) * 1 := by gcongr
      _ = |aB| * (1 / (1 + (bB / (k * s)) ^ 3)) := by ring
      _ ≤ _ := by gcongr
  have := hsinc.mul (hT0.add hT2)
  simpa using this

/-- The transfer function with wiggles tends to one on large scales, for every valid cosmology. -/
theorem eisensteinHu_large_scale (c : Cosmo) (v : c.Valid) : Tendsto (eisensteinHu c) (𝓝 0) (𝓝 1) := by
  have hh := v.2.2.1
  apply extend_one
  have hk : Tendsto (fun k : ℝ => k * c.h) (𝓝[>] 0) (𝓝[>] 0) := by
    refine tendsto_nhdsWithin_iff.2 ⟨?_, ?_⟩
    · have : ContinuousAt (fun k : ℝ => k * c.h) 0 := by fun_prop
      have := this.tendsto
      simp only [zero_mul] at this
      exact this.mono_left nhdsWithin_le_nhds
    · filter_upwards [self_mem_nhdsWithin] with k hk
      have hk : 0 < k := hk
      exact mul_pos hk hh
  have b := (tB_tendsto (A := 1 / (13.41 * c.kEq)) (aB := c.alphaB) (soundHorizon_pos v) (betaB_pos v) (betaNode_pos v)
    (kSilk_pos v)).comp hk
  have d := ((tC_tendsto (A := 1 / (13.41 * c.kEq)) (B := c.soundHorizon) (alpha := c.alphaC) (beta := c.betaC)).mono_left
    nhdsWithin_le_nhds).comp hk
  have := (b.const_mul c.fBaryon).add (d.const_mul (1 - c.fBaryon))
  simp only [Function.comp_def, mul_one_div] at this
  convert this using 2
  ring

theorem frac_atTop {beta alpha A : ℝ} (hA : 0 < A) (hb : 0 < beta) (ha : 0 < alpha) :
    Tendsto (fun k : ℝ => frac (k * A) (lnBeta (k * A) beta) (cAlpha (k * A) alpha)) atTop (𝓝 0) := by
  have he := exp_pos 1
  have ub : Tendsto (fun k : ℝ => (exp 1 + 1.8 * beta) / (14.2 / alpha) * A⁻¹ * k⁻¹) atTop (𝓝 0) := by
    simpa using tendsto_inv_atTop_zero.const_mul ((exp 1 + 1.8 * beta) / (14.2 / alpha) * A⁻¹)
  refine tendsto_of_tendsto_of_tendsto_of_le_of_le' tendsto_const_nhds ub ?_ ?_
  · filter_upwards [eventually_gt_atTop 0] with k hk
    have q0 : 0 < k * A := by positivity
    exact (frac_pos (by linarith [lnBeta_ge q0.le hb.le]) (cAlpha_pos q0.le ha).le).le
  · filter_upwards [eventually_ge_atTop A⁻¹] with k hk
    have k0 : 0 < k := lt_of_lt_of_le (by positivity) hk
    have q1 : 1 ≤ k * A := by
      have := mul_le_mul_of_nonneg_right hk hA.le
      rwa [inv_mul_cancel₀ hA.ne'] at this
    have e : (exp 1 + 1.8 * beta) / (14.2 / alpha) * A⁻¹ * k⁻¹ = (exp 1 + 1.8 * beta) * (k * A) / (14.2 / alpha * (k * A) ^ 2) := by
      field_simp
    rw [e]
    generalize k * A = q at *
    have q0 : 0 < q := by linarith
    have l1 := lnBeta_ge q0.le hb.le
    have l : lnBeta q beta ≤ (exp 1 + 1.8 * beta) * q := by
      unfold lnBeta
      refine (log_le_sub_one_of_pos (by positivity)).trans ?_
      nlinarith
    have cc : 14.2 / alpha ≤ cAlpha q alpha := by
      unfold cAlpha
      have : 0 < 386 / (1 + 69.9 * q ^ (1.08 : ℝ)) := by positivity
      linarith
    have l0 : 0 < lnBeta q beta := by linarith
    unfold frac
    calc _ ≤ (exp 1 + 1.8 * beta) * q / (lnBeta q beta + cAlpha q alpha * q ^ 2) := by
          have := cAlpha_pos q0.le ha
          gcongr
      _ ≤ _ := by
          apply div_le_div_of_nonneg_left (by positivity) (by positivity)
          have : 14.2 / alpha * q ^ 2 ≤ cAlpha q alpha * q ^ 2 := by gcongr
          linarith

theorem tC_atTop {A B alpha beta : ℝ} (hA : 0 < A) (hb : 0 < beta) (ha : 0 < alpha) :
    Tendsto (fun k : ℝ => tC (k * A) (k * B) alpha beta) atTop (𝓝 0) := by
  have s := (frac_atTop hA hb one_pos).add (frac_atTop hA hb ha)
  rw [add_zero] at s
  refine tendsto_of_tendsto_of_tendsto_of_le_of_le' tendsto_const_nhds s ?_ ?_
  · filter_upwards [eventually_gt_atTop 0] with k hk
    exact (tC_range (by positivity) ha hb).1.le
  · filter_upwards [eventually_gt_atTop 0] with k hk
    have q0 : 0 < k * A := by positivity
    have l0 : 0 < lnBeta (k * A) beta := by linarith [lnBeta_ge q0.le hb.le]
    have a := frac_pos (q := k * A) l0 (cAlpha_pos q0.le one_pos).le
    have b := frac_pos (q := k * A) l0 (cAlpha_pos q0.le ha).le
    obtain ⟨f0, f1⟩ := f_mem (k * B)
    simp only [tC]
    generalize 1 / (1 + (k * B / 5.4) ^ 4) = f at *
    nlinarith

theorem tB_atTop {A s aB bB bN kS : ℝ} (hA : 0 < A) (hs : 0 < s) (hb : 0 < bB) (hkS : 0 < kS) :
    Tendsto (fun k : ℝ => tB k (k * A) s aB bB bN kS) atTop (𝓝 0) := by
  have hx : Tendsto (fun k : ℝ => |aB| * exp (-(k / kS) ^ (1.4 : ℝ))) atTop (𝓝 0) := by
    have h1 : Tendsto (fun k : ℝ => (k / kS) ^ (1.4 : ℝ)) atTop atTop :=
      (tendsto_rpow_atTop (by norm_num)).comp (tendsto_id.atTop_div_const hkS)
    have := (tendsto_exp_neg_atTop_nhds_zero.comp h1).const_mul |aB|
    simpa [Function.comp_def] using this
  have ub := (frac_atTop hA one_pos one_pos).add hx
  rw [add_zero] at ub
  refine squeeze_zero_norm' ?_ ub
  filter_upwards [eventually_gt_atTop 0] with k hk
  have q0 : 0 < k * A := by positivity
  have l0 : 0 < lnBeta (k * A) 1 := by linarith [lnBeta_ge q0.le zero_le_one]
  have a := frac_pos (q := k * A) l0 (cAlpha_pos q0.le one_pos).le
  unfold tB
  simp only
  rw [norm_eq_abs, abs_mul]
  have s1 := sinc_abs_le (k * (s * (1 + (bN / (k * s)) ^ 3) ^ (-1 / 3 : ℝ)))
  have T1 : |frac (k * A) (lnBeta (k * A) 1) (cAlpha (k * A) 1) / (1 + (k * s / 5.2) ^ 2)| ≤
      frac (k * A) (lnBeta (k * A) 1) (cAlpha (k * A) 1) := by
    rw [abs_of_nonneg (by positivity)]
    apply div_le_self a.le
    have : 0 ≤ (k * s / 5.2) ^ 2 := by positivity
    linarith
  have T2 : |aB / (1 + (bB / (k * s)) ^ 3) * exp (-(k / kS) ^ (1.4 : ℝ))| ≤ |aB| * exp (-(k / kS) ^ (1.4 : ℝ)) := by
    rw [abs_mul, abs_div, abs_exp, abs_of_pos (show 0 < 1 + (bB / (k * s)) ^ 3 by positivity)]
    gcongr
    apply div_le_self (abs_nonneg _)
    have : 0 < (bB / (k * s)) ^ 3 := by positivity
    linarith
  calc _ ≤ 1 * (frac (k * A) (lnBeta (k * A) 1) (cAlpha (k * A) 1) + |aB| * exp (-(k / kS) ^ (1.4 : ℝ))) := by
        gcongr
        exact (abs_add_le _ _).trans (add_le_add T1 T2)
    _ = _ := one_mul _

/-- The transfer function with wiggles vanishes on small scales, for every valid cosmology. -/
theorem eisensteinHu_small_scale (c : Cosmo) (v : c.Valid) : Tendsto (eisensteinHu c) atTop (𝓝 0) := by
  have hh := v.2.2.1; have hke := kEq_pos v
  have hA : 0 < 1 / (13.41 * c.kEq) := by positivity
  have hk : Tendsto (fun k : ℝ => k * c.h) atTop atTop := tendsto_id.atTop_mul_const hh
  have b := (tB_atTop (aB := c.alphaB) (bN := c.betaNode) hA (soundHorizon_pos v) (betaB_pos v) (kSilk_pos v)).comp hk
  have d := (tC_atTop (B := c.soundHorizon) hA (betaC_pos v) (alphaC_pos v)).comp hk
  have := (b.const_mul c.fBaryon).add (d.const_mul (1 - c.fBaryon))
  simp only [Function.comp_def, mul_one_div, mul_zero, add_zero] at this
  refine this.congr' ?_
  filter_upwards [eventually_gt_atTop 0] with k hk
  simp [eisensteinHu, hk]

/-- The transfer function with wiggles is bounded by 1 + f_b |alpha_b|. -/
theorem eisensteinHu_bounded (c : Cosmo) (v : c.Valid) (k : ℝ) : |eisensteinHu c k| ≤ 1 + c.fBaryon * |c.alphaB| := by
  have hf := fB_pos v; have hf1 := fB_lt v
  have hfa : 0 ≤ c.fBaryon * |c.alphaB| := by positivity
  unfold eisensteinHu
  split
  · rename_i hk
    have hh := v.2.2.1; have hke := kEq_pos v; have hs := soundHorizon_pos v
    have hbB := betaB_pos v; have hkS := kSilk_pos v
    have q0 : 0 < k * c.h / (13.41 * c.kEq) := by positivity
    have kk : 0 < k * c.h := by positivity
    simp only
    generalize k * c.h / (13.41 * c.kEq) = q at *
    generalize k * c.h = x at *
    obtain ⟨a, b⟩ := tC_range (ks := x * c.soundHorizon) q0 (alphaC_pos v) (betaC_pos v)
    have hB : |tB x q c.soundHorizon c.alphaB c.betaB c.betaNode c.kSilk| ≤ 1 + |c.alphaB| := by
      unfold tB
      simp only
      rw [abs_mul]
      have s1 := sinc_abs_le (x * (c.soundHorizon * (1 + (c.betaNode / (x * c.soundHorizon)) ^ 3) ^ (-1 / 3 : ℝ)))
      have l0 : 0 < lnBeta q 1 := by linarith [lnBeta_ge q0.le zero_le_one]
      have t0 := frac_pos (q := q) l0 (cAlpha_pos q0.le one_pos).le
      have t1 := frac_le (q := q) l0 (cAlpha_pos q0.le one_pos).le
      have T1 : |frac q (lnBeta q 1) (cAlpha q 1) / (1 + (x * c.soundHorizon / 5.2) ^ 2)| ≤ 1 := by
        rw [abs_of_nonneg (by positivity), div_le_one (by positivity)]
        have : 0 ≤ (x * c.soundHorizon / 5.2) ^ 2 := by positivity
        linarith
      have T2 : |c.alphaB / (1 + (c.betaB / (x * c.soundHorizon)) ^ 3) * exp (-(x / c.kSilk) ^ (1.4 : ℝ))| ≤ |c.alphaB| := by
        rw [abs_mul, abs_div, abs_exp, abs_of_pos (show 0 < 1 + (c.betaB / (x * c.soundHorizon)) ^ 3 by positivity)]
        have e1 : exp (-(x / c.kSilk) ^ (1.4 : ℝ)) ≤ 1 := by
          rw [exp_le_one_iff]
          have : 0 < (x / c.kSilk) ^ (1.4 : ℝ) := by positivity
          linarith
        have e2 : |c.alphaB| / (1 + (c.betaB / (x * c.soundHorizon)) ^ 3) ≤ |c.alphaB| := by
          apply div_le_self (abs_nonneg _)
          have : 0 < (c.betaB / (x * c.soundHorizon)) ^ 3 := by positivity
          linarith
        calc _ ≤ |c.alphaB| * 1 := by gcongr
          _ = _ := mul_one _
      calc _ ≤ 1 * (1 + |c.alphaB|) := by
            gcongr
            exact (abs_add_le _ _).trans (add_le_add T1 T2)
        _ = _ := one_mul _
    generalize tB x q c.soundHorizon c.alphaB c.betaB c.betaNode c.kSilk = tb at *
    generalize tC q (x * c.soundHorizon) c.alphaC c.betaC = tc at *
    refine (abs_add_le _ _).trans ?_
    rw [abs_mul, abs_mul, abs_of_pos hf, abs_of_pos (show 0 < 1 - c.fBaryon by linarith), abs_of_pos a]
    have := mul_le_mul_of_nonneg_left hB hf.le
    have := mul_le_mul_of_nonneg_left b.le (show 0 ≤ 1 - c.fBaryon by linarith)
    linarith
  · rw [abs_one]; linarith

/-! ## The formulas of the paper, in its own notation

Written from the published formulas as known to the author of this file: the paper itself is not in the repository.
`w = Omega_0 h^2`, `b = Omega_b h^2`, `t = Theta_2.7`; wavenumbers in 1/Mpc.
-/

/-- The redshift of equality, and its wavenumber. -/
def paperZeq (w t : ℝ) : ℝ := 25000 * w / t ^ 4
def paperKeq (w t : ℝ) : ℝ := 7.46 / 100 * w / t ^ 2
/-- The drag epoch. -/
def paperZd (w b : ℝ) : ℝ :=
  1291 * (w ^ (0.251 : ℝ) / (1 + 0.659 * w ^ (0.828 : ℝ))) *
    (1 + (0.313 / w ^ (0.419 : ℝ) * (1 + 0.607 * w ^ (0.674 : ℝ))) * b ^ (0.238 * w ^ (0.223 : ℝ)))
/-- The ratio of the baryon to photon momentum density, of 1 + z. -/
def paperR (b t z : ℝ) : ℝ := 31.5 * b / t ^ 4 / (z / 1000)
/-- The sound horizon. -/
def paperS (w b t : ℝ) : ℝ :=
  let Rd := paperR b t (1 + paperZd w b)
  let Req := paperR b t (paperZeq w t)
  2 / (3 * paperKeq w t) * sqrt (6 / Req) * log ((sqrt (1 + Rd) + sqrt (Rd + Req)) / (1 + sqrt Req))
/-- Silk damping. -/
def paperSilk (w b : ℝ) : ℝ := 1.6 * b ^ (0.52 : ℝ) * w ^ (0.73 : ℝ) * (1 + 1 / (10.4 * w) ^ (0.95 : ℝ))
/-- The pressureless transfer function. -/
def paperT0 (q alpha beta : ℝ) : ℝ :=
  let L := log (exp 1 + 1.8 * beta * q)
  L / (L + (14.2 / alpha + 386 / (1 + 69.9 * q ^ (1.08 : ℝ))) * q ^ 2)
/-- The cold dark matter. -/
def paperTc (q ks alpha beta : ℝ) : ℝ :=
  let f := 1 / (1 + (ks / 5.4) ^ 4)
  f * paperT0 q 1 beta + (1 - f) * paperT0 q alpha beta
/-- The baryons. -/
def paperTb (k q s aB bB bN kS : ℝ) : ℝ :=
  (paperT0 q 1 1 / (1 + (k * s / 5.2) ^ 2) + aB / (1 + (bB / (k * s)) ^ 3) * exp (-(k / kS) ^ (1.4 : ℝ))) *
    Real.sinc (k * s / (1 + (bN / (k * s)) ^ 3) ^ (1 / 3 : ℝ))
/-- The function G of the baryon suppression. -/
def paperG (y : ℝ) : ℝ := y * (-6 * sqrt (1 + y) + (2 + 3 * y) * log ((sqrt (1 + y) + 1) / (sqrt (1 + y) - 1)))
/-- The suppression of the cold dark matter. -/
def paperAlphaC (w f : ℝ) : ℝ :=
  1 / ((46.9 * w) ^ (0.670 : ℝ) * (1 + 1 / (32.1 * w) ^ (0.532 : ℝ))) ^ f /
    ((12 * w) ^ (0.424 : ℝ) * (1 + 1 / (45 * w) ^ (0.582 : ℝ))) ^ (f ^ 3)
/-- The whole, for a given `beta_c`. -/
def paperT (w b t f betaC k : ℝ) : ℝ :=
  let q := k / (13.41 * paperKeq w t)
  let s := paperS w b t
  let Rd := paperR b t (1 + paperZd w b)
  let aB := 2.07 * paperKeq w t * s / (1 + Rd) ^ (3 / 4 : ℝ) * paperG (paperZeq w t / (1 + paperZd w b))
  let bB := 1 / 2 + f + (3 - 2 * f) * sqrt ((17.2 * w) ^ 2 + 1)
  f * paperTb k q s aB bB (8.41 * w ^ (0.435 : ℝ)) (paperSilk w b) + (1 - f) * paperTc q (k * s) (paperAlphaC w f) betaC

theorem paper_kEq {c : Cosmo} (v : c.Valid) : c.kEq = paperKeq c.Omh2 c.theta := by
  have ht := theta_pos v
  unfold Cosmo.kEq paperKeq
  rw [rpow_neg ht.le, show (2 : ℝ) = ((2 : ℕ) : ℝ) by norm_num, rpow_natCast]
  ring
theorem theta_neg4 {c : Cosmo} (v : c.Valid) : c.theta ^ (-4 : ℝ) = 1 / c.theta ^ 4 := by
  have ht := theta_pos v
  rw [rpow_neg ht.le, show (4 : ℝ) = ((4 : ℕ) : ℝ) by norm_num, rpow_natCast]
  ring
theorem paper_zEq {c : Cosmo} (v : c.Valid) : c.zEq = paperZeq c.Omh2 c.theta := by
  unfold Cosmo.zEq paperZeq
  rw [theta_neg4 v]; ring
theorem paper_zDrag {c : Cosmo} (v : c.Valid) : c.zDrag = paperZd c.Omh2 c.Obh2 := by
  have h := Omh2_pos v
  unfold Cosmo.zDrag Cosmo.zDragB1 Cosmo.zDragB2 paperZd
  rw [rpow_neg h.le]
  ring
theorem paper_rDrag {c : Cosmo} (v : c.Valid) : c.rDrag = paperR c.Obh2 c.theta (1 + paperZd c.Omh2 c.Obh2) := by
  unfold Cosmo.rDrag paperR
  rw [theta_neg4 v, paper_zDrag v]; field_simp
theorem paper_rEq {c : Cosmo} (v : c.Valid) : c.rEq = paperR c.Obh2 c.theta (paperZeq c.Omh2 c.theta) := by
  unfold Cosmo.rEq paperR
  rw [theta_neg4 v, paper_zEq v]; field_simp
theorem paper_s {c : Cosmo} (v : c.Valid) : c.soundHorizon = paperS c.Omh2 c.Obh2 c.theta := by
  unfold Cosmo.soundHorizon paperS
  rw [paper_kEq v, paper_rEq v, paper_rDrag v]
theorem paper_silk {c : Cosmo} (v : c.Valid) : c.kSilk = paperSilk c.Omh2 c.Obh2 := by
  have h := Omh2_pos v
  unfold Cosmo.kSilk paperSilk
  rw [rpow_neg (by positivity), one_div]
theorem paper_alphaC {c : Cosmo} (v : c.Valid) : c.alphaC = paperAlphaC c.Omh2 c.fBaryon := by
  have h := Omh2_pos v
  unfold Cosmo.alphaC paperAlphaC
  simp only
  rw [rpow_neg (x := 32.1 * c.Omh2) (by positivity), rpow_neg (x := 45.0 * c.Omh2) (by positivity),
    rpow_neg (by positivity), rpow_neg (by positivity)]
  norm_num
  field_simp

/-- Apart from `beta_c` the code evaluates the published formula, at every positive wavenumber (h/Mpc) and for every valid
cosmology. -/
theorem eisensteinHu_paper_partial (c : Cosmo) (v : c.Valid) (k : ℝ) (hk : 0 < k) :
    eisensteinHu c k = paperT c.Omh2 c.Obh2 c.theta c.fBaryon c.betaC (k * c.h) := by
  have hh := v.2.2.1; have hs := soundHorizon_pos v; have hn := betaNode_pos v; have hR := rDrag_pos v
  have kk : 0 < k * c.h := by positivity
  have eb : c.betaB = 1 / 2 + c.fBaryon + (3 - 2 * c.fBaryon) * sqrt ((17.2 * c.Omh2) ^ 2 + 1) := by
    unfold Cosmo.betaB; norm_num
  have en : c.betaNode = 8.41 * c.Omh2 ^ (0.435 : ℝ) := rfl
  have ea : c.alphaB = 2.07 * c.kEq * c.soundHorizon / (1 + c.rDrag) ^ (3 / 4 : ℝ) * paperG (c.zEq / (1 + c.zDrag)) := by
    unfold Cosmo.alphaB paperG
    have : (1 + c.rDrag) ^ (-0.75 : ℝ) = 1 / (1 + c.rDrag) ^ (3 / 4 : ℝ) := by
      rw [rpow_neg (by positivity), one_div]; norm_num
    simp only
    rw [this]; ring
  have es : k * c.h * (c.soundHorizon * (1 + (c.betaNode / (k * c.h * c.soundHorizon)) ^ 3) ^ (-1 / 3 : ℝ)) =
      k * c.h * c.soundHorizon / (1 + (c.betaNode / (k * c.h * c.soundHorizon)) ^ 3) ^ (1 / 3 : ℝ) := by
    rw [show (-1 / 3 : ℝ) = -(1 / 3) by norm_num, rpow_neg (by positivity)]
    field_simp
  simp only [eisensteinHu, if_pos hk, paperT, paperTb, paperTc, tB, tC, frac, lnBeta, cAlpha, paperT0]
  rw [es, ← paper_kEq v, ← paper_s v, ← paper_rDrag v, ← paper_zEq v, ← paper_zDrag v, ← paper_silk v, ← paper_alphaC v, ← ea,
    ← eb, ← en, sinc_eq]
  ring

/-- The sound horizon fit in Mpc, `alpha_Gamma` and the effective shape, for `k` in h/Mpc. -/
def paperSfit (w b : ℝ) : ℝ := 44.5 * log (9.83 / w) / sqrt (1 + 10 * b ^ (3 / 4 : ℝ))
def paperShape (w b h f k : ℝ) : ℝ :=
  let a := 1 - 0.328 * log (431 * w) * f + 0.38 * log (22.3 * w) * f ^ 2
  w / h * (a + (1 - a) / (1 + (0.43 * (k * h) * paperSfit w b) ^ 4))
/-- The transfer function of zero baryons. -/
def paperNoWiggle (q : ℝ) : ℝ :=
  log (2 * exp 1 + 1.8 * q) / (log (2 * exp 1 + 1.8 * q) + (14.2 + 731 / (1 + 62.5 * q)) * q ^ 2)

/-- The smooth transfer function of the code is the published one, at an effective wavenumber 0.04% below the published
`k Theta^2 / Gamma_eff`. -/
theorem noWiggle_paper (c : Cosmo) (v : c.Valid) (k : ℝ) (hk : 0 < k) :
    noWiggle c k = paperNoWiggle (k * c.theta ^ 2 / paperShape c.Omh2 c.Obh2 c.h c.fBaryon k / 1.000386) := by
  have hh := v.2.2.1; have h := Omh2_pos v; have ht := theta_pos v
  have e : qEff c k = k * c.theta ^ 2 / paperShape c.Omh2 c.Obh2 c.h c.fBaryon k / 1.000386 := by
    rw [qEff_eq c v, paper_kEq v]
    have es : c.soundHorizonFit = c.h * paperSfit c.Omh2 c.Obh2 := by
      unfold Cosmo.soundHorizonFit paperSfit
      norm_num
      ring
    unfold paperShape paperKeq Cosmo.alphaGamma
    simp only
    rw [es, show 0.43 * (k * (c.h * paperSfit c.Omh2 c.Obh2)) = 0.43 * (k * c.h) * paperSfit c.Omh2 c.Obh2 by ring]
    generalize 1 - 0.328 * log (431 * c.Omh2) * c.fBaryon + 0.38 * log (22.3 * c.Omh2) * c.fBaryon ^ 2 +
        (1 - (1 - 0.328 * log (431 * c.Omh2) * c.fBaryon + 0.38 * log (22.3 * c.Omh2) * c.fBaryon ^ 2)) /
        (1 + (0.43 * (k * c.h) * paperSfit c.Omh2 c.Obh2) ^ 4) = g
    field_simp
    norm_num
  simp only [noWiggle, if_pos hk, tNoWiggle, paperNoWiggle, e]

/-! ## The coefficient `beta_c` of the paper (Eisenstein & Hu 1998, ApJ 496, 605) -/

/-- `b_2 = (0.395 Omega_0 h^2)^-0.0266` -/
def paperB2 (c : Cosmo) : ℝ := (0.395 * c.Omh2) ^ (-0.0266 : ℝ)

/-- `1 / beta_c = 1 + b_1 ((Omega_c / Omega_0)^b_2 - 1)` -/
def paperBetaC (c : Cosmo) : ℝ := 1 / (1 + c.betaCB1 * ((1 - c.fBaryon) ^ paperB2 c - 1))

/-- In the code the exponent `beta_c_b2` is less than half of the one of the paper. -/
theorem betaCB2_wrong (c : Cosmo) (v : c.Valid) : c.betaCB2 < paperB2 c / 2 := by
  have h := Omh2_pos v
  unfold Cosmo.betaCB2 paperB2
  rw [mul_rpow (by norm_num) h.le]
  have : 1 ≤ (0.395 : ℝ) ^ (-0.0266 : ℝ) := one_le_rpow_of_pos_of_le_one_of_nonpos (by norm_num) (by norm_num) (by norm_num)
  have p : 0 < c.Omh2 ^ (-0.0266 : ℝ) := by positivity
  nlinarith

/-- In the code `beta_c` exceeds 1.05, whatever the baryon fraction. -/
theorem betaC_ge (c : Cosmo) (v : c.Valid) : 1.05 < c.betaC := by
  have h1 := betaCB1_pos v; have h2 := betaCB1_lt v
  have f0 := fB_pos v; have f1 := fB_lt v; have h := Omh2_pos v
  have x0 : 0 < (1 - c.fBaryon) ^ c.betaCB2 := rpow_pos_of_pos (by linarith) _
  have x1 : (1 - c.fBaryon) ^ c.betaCB2 ≤ 1 := by
    apply rpow_le_one (by linarith) (by linarith)
    unfold Cosmo.betaCB2; positivity
  unfold Cosmo.betaC
  have e : 1 + c.betaCB1 * (1 - c.fBaryon) ^ c.betaCB2 - 1 = c.betaCB1 * (1 - c.fBaryon) ^ c.betaCB2 := by ring
  rw [e, lt_div_iff₀ (by positivity)]
  nlinarith

/-- The coefficient of the paper tends to one without baryons. -/
theorem paperBetaC_tendsto (Om h T : ℝ) :
    Tendsto (fun Ob => paperBetaC ⟨Ob, Om, h, T⟩) (𝓝 0) (𝓝 1) := by
  unfold paperBetaC paperB2 Cosmo.betaCB1 Cosmo.fBaryon Cosmo.Omh2
  simp only
  have : ContinuousAt (fun Ob : ℝ => 1 / (1 + 0.944 / (1 + (458 * (Om * h ^ 2)) ^ (-0.708 : ℝ)) *
      ((1 - Ob / Om) ^ ((0.395 * (Om * h ^ 2)) ^ (-0.0266 : ℝ)) - 1))) 0 := by
    refine ContinuousAt.div (by fun_prop) ?_ (by simp)
    refine ContinuousAt.add (by fun_prop) (ContinuousAt.mul (by fun_prop) (ContinuousAt.sub ?_ (by fun_prop)))
    exact ContinuousAt.rpow_const (by fun_prop) (Or.inl (by simp))
  simpa using this.tendsto

/-- For every matter density there is a baryon density for which the code's `beta_c`, and the transfer function of cold dark
matter at every positive wavenumber, exceed those of the paper. -/
theorem betaC_wrong (Om h T : ℝ) (hOm : 0 < Om) (hh : 0 < h) (hT : 0 < T) :
    ∃ Ob, (Cosmo.mk Ob Om h T).Valid ∧ paperBetaC ⟨Ob, Om, h, T⟩ < (Cosmo.mk Ob Om h T).betaC ∧
      ∀ q ks, 0 < q → tC q ks (Cosmo.mk Ob Om h T).alphaC (paperBetaC ⟨Ob, Om, h, T⟩) <
        tC q ks (Cosmo.mk Ob Om h T).alphaC (Cosmo.mk Ob Om h T).betaC := by
  have ev : ∀ᶠ Ob in 𝓝 (0 : ℝ), paperBetaC ⟨Ob, Om, h, T⟩ ∈ Set.Ioo (0 : ℝ) 1.05 :=
    (paperBetaC_tendsto Om h T).eventually (Ioo_mem_nhds (by norm_num) (by norm_num))
  have ev2 : ∀ᶠ Ob in 𝓝[>] (0 : ℝ), paperBetaC ⟨Ob, Om, h, T⟩ ∈ Set.Ioo (0 : ℝ) 1.05 :=
    ev.filter_mono nhdsWithin_le_nhds
  have ev3 : ∀ᶠ Ob in 𝓝[>] (0 : ℝ), Ob < Om := (eventually_lt_nhds hOm).filter_mono nhdsWithin_le_nhds
  obtain ⟨Ob, ⟨⟨p0, p1⟩, lt⟩, pos⟩ := ((ev2.and ev3).and self_mem_nhdsWithin).exists
  have v : (Cosmo.mk Ob Om h T).Valid := ⟨pos, lt, hh, hT⟩
  have b := p1.trans (betaC_ge _ v)
  exact ⟨Ob, v, b, fun q ks hq => tC_strictMono_beta hq (alphaC_pos v) p0 b⟩

/-- A concrete cosmology which meets the hypotheses. -/
theorem valid_case : (Cosmo.mk 0.05 0.3 0.7 2.7).Valid := by
  refine ⟨?_, ?_, ?_, ?_⟩ <;> norm_num

/-- Unless the matter density is tiny or almost all in baryons, `alpha_gamma <= 1`: the hypothesis of `noWiggle_antitone`. -/
theorem alphaGamma_le (c : Cosmo) (v : c.Valid) (h : 1 ≤ 22.3 * c.Omh2) (hf : c.fBaryon ≤ 0.86) : c.alphaGamma ≤ 1 := by
  have f0 := fB_pos v
  have l0 : 0 ≤ log (22.3 * c.Omh2) := log_nonneg h
  have l1 : log (22.3 * c.Omh2) ≤ log (431 * c.Omh2) := log_le_log (by linarith) (by linarith)
  unfold Cosmo.alphaGamma
  have a : log (22.3 * c.Omh2) * c.fBaryon * c.fBaryon ≤ log (22.3 * c.Omh2) * c.fBaryon * 0.86 := by gcongr
  have b : log (22.3 * c.Omh2) * c.fBaryon ≤ log (431 * c.Omh2) * c.fBaryon := by gcongr
  have d : 0 ≤ log (22.3 * c.Omh2) * c.fBaryon := by positivity
  nlinarith

/-- A concrete cosmology which meets the hypotheses on `alpha_gamma`. -/
theorem alphaGamma_case : 0 < (Cosmo.mk 0.05 0.3 0.7 2.7).alphaGamma ∧ (Cosmo.mk 0.05 0.3 0.7 2.7).alphaGamma ≤ 1 := by
  have l2 := log_two_lt_d9
  have l3 := log_two_gt_d9
  have e : (Cosmo.mk 0.05 0.3 0.7 2.7).Omh2 = 0.147 := by norm_num [Cosmo.Omh2]
  have f : (Cosmo.mk 0.05 0.3 0.7 2.7).fBaryon = 1 / 6 := by norm_num [Cosmo.fBaryon]
  have p : ∀ n : ℕ, log ((2 : ℝ) ^ n) = n * log 2 := fun n => Real.log_pow 2 n
  have a : log (431 * 0.147) ≤ 6 * log 2 := by
    have := p 6
    push_cast at this
    rw [← this]; apply log_le_log <;> norm_num
  have a' : 5 * log 2 ≤ log (431 * 0.147) := by
    have := p 5
    push_cast at this
    rw [← this]; apply log_le_log <;> norm_num
  have b : log (22.3 * 0.147) ≤ 2 * log 2 := by
    have := p 2
    push_cast at this
    rw [← this]; apply log_le_log <;> norm_num
  have b' : 0 ≤ log (22.3 * 0.147) := log_nonneg (by norm_num)
  unfold Cosmo.alphaGamma
  rw [e, f]
  constructor <;> nlinarith

end NBK.Ehu
