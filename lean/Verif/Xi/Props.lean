import Verif.Xi.Model
import Verif.Power.Props

/-! # C103, C104: the correlation function of a power spectrum, and the galaxy power with primordial non-Gaussianity -/
set_option linter.unusedSimpArgs false
noncomputable section
namespace NBK.Xi
open Power

/-! ## The correlation function -/

/-- The power object that an action changes. -/
def target (cfs : List CF) : Act → Option Nat
  | .pow i _ => some i
  | .cf j _ => cfs[j]?.map (·.power)

/-- The assignment of an action. -/
def opOf : Act → Op ℝ
  | .pow _ op => op
  | .cf _ op => op

/-- All assignments that reach the power at a place, through whichever object. -/
def opsOn (cfs : List CF) (i : Nat) (acts : List Act) : List (Op ℝ) :=
  (acts.filter fun a => target cfs a = some i).map opOf

theorem assign_cfs {w w' : World} {i : Nat} {op : Op ℝ} (h : assign w i op = .ok w') : w'.cfs = w.cfs := by
  unfold assign at h
  split at h
  · exact absurd h (by simp)
  · split at h
    · cases h; rfl
    · split at h
      · cases h; rfl
      · exact absurd h (by simp)

theorem step_eq (w : World) (a : Act) : step w a = match target w.cfs a with
    | none => .error .attributeError
    | some i => assign w i (opOf a) := by
  cases a with
  | pow i op => rfl
  | cf j op =>
    simp only [step, target, opOf]
    cases h : w.cfs[j]? <;> simp

theorem assign_other {w w' : World} {i j : Nat} {op : Op ℝ} (h : assign w i op = .ok w') (hij : i ≠ j) :
    w'.powers[j]? = w.powers[j]? := by
  unfold assign at h
  split at h
  · exact absurd h (by simp)
  · split at h
    · cases h; simp [List.getElem?_set, hij]
    · split at h
      · cases h; simp [List.getElem?_set, hij]
      · exact absurd h (by simp)

theorem assign_lin {w w' : World} {i : Nat} {op : Op ℝ} {o : Lin ℝ} (h : assign w i op = .ok w') (ho : w.powers[i]? = some (.lin o)) :
    ∃ o', Power.step o op = .ok o' ∧ w'.powers[i]? = some (.lin o') := by
  obtain ⟨hi, _⟩ := List.getElem?_eq_some_iff.1 ho
  unfold assign at h
  rw [ho] at h
  cases op with
  | redshift z =>
    simp only at h
    cases h
    exact ⟨_, rfl, by simp [hi, Pow.setRedshift]⟩
  | sigma8 v =>
    simp only [Pow.setSigma8] at h
    cases hs : Power.setSigma8 o v with
    | error x => rw [hs] at h; simp at h
    | ok o' =>
      rw [hs] at h
      simp only at h
      cases h
      exact ⟨o', hs, by simp [hi]⟩

/-- The power at a place after a history is that after the assignments that reached it. -/
theorem run_lin (w w' : World) (i : Nat) (o : Lin ℝ) (acts : List Act) (h : run w acts = .ok w') (ho : w.powers[i]? = some (.lin o)) :
    w'.cfs = w.cfs ∧ ∃ o', Power.run o (opsOn w.cfs i acts) = .ok o' ∧ w'.powers[i]? = some (.lin o') := by
  induction acts generalizing w o with
  | nil =>
    cases h
    exact ⟨rfl, o, rfl, ho⟩
  | cons a acts ih =>
    unfold run at h
    rw [step_eq] at h
    cases ht : target w.cfs a with
    | none => rw [ht] at h; simp at h
    | some k =>
      rw [ht] at h
      simp only at h
      cases hs : assign w k (opOf a) with
      | error x => rw [hs] at h; simp at h
      | ok w1 =>
        rw [hs] at h
        simp only at h
        have hc := assign_cfs hs
        by_cases hk : k = i
        · subst hk
          obtain ⟨o1, h1, h2⟩ := assign_lin hs ho
          obtain ⟨g1, o', g2, g3⟩ := ih w1 o1 h h2
          refine ⟨g1.trans hc, o', ?_, g3⟩
          have : opsOn w.cfs k (a :: acts) = opOf a :: opsOn w.cfs k acts := by simp [opsOn, ht]
          rw [this, Power.run, h1]
          rw [hc] at g2
          exact g2
        · have h2 : w1.powers[i]? = some (.lin o) := by rw [assign_other hs hk]; exact ho
          obtain ⟨g1, o', g2, g3⟩ := ih w1 o h h2
          refine ⟨g1.trans hc, o', ?_, g3⟩
          have : opsOn w.cfs i (a :: acts) = opsOn w.cfs i acts := by simp [opsOn, ht, hk]
          rw [this]
          rw [hc] at g2
          exact g2

/-- A multiple of the power transforms to the multiple of the correlation function, also with the extrapolation by a power law. -/
def Homogeneous (transform : List ℝ → List (Option ℝ) → ℝ → Option ℝ) : Prop :=
  ∀ (c : ℝ) ks Ps r, c ≠ 0 → transform ks (Ps.map fun P => P.map (c * ·)) r = (transform ks Ps r).map (c * ·)

/-- C103: the correlation function of a linear power is rescaled with redshift and sigma8, whatever happened before: it is the
transform of the power at the redshift last assigned times the square of the ratio of the sigma8 last assigned to that of the
cosmology.  It does not matter through which `CorrelationFunction` of this power, or directly, the values were assigned. -/
theorem xi_history (e : Env ℝ) (halo : ℝ → ℝ → ℝ → ℝ) (transform : List ℝ → List (Option ℝ) → ℝ → Option ℝ) (ht : Homogeneous transform)
    (ks : List ℝ) (kind : Kind) (z0 : ℝ) (h8 : e.sigma8 ≠ 0) (w w' : World) (i j : Nat) (acts : List Act) (h : run w acts = .ok w')
    (hp : w.powers[i]? = some (.lin (init e kind z0))) (hj : w.cfs[j]?.map (·.power) = some i)
    (hz : NonZero (opsOn w.cfs i acts)) (smoothing r : ℝ) :
    let z := lastZ z0 (opsOn w.cfs i acts)
    let s := lastSigma8 e.sigma8 (opsOn w.cfs i acts)
    call e halo transform ks w' j smoothing r =
      (transform ks (ks.map fun k => some (fn e (init e kind z) k * damp smoothing k)) r).map ((s / e.sigma8) ^ 2 * ·) ∧
    ∃ c, attrs w' j = some (z, s, c) := by
  obtain ⟨hc, o, h1, h2⟩ := run_lin w w' i _ acts h hp
  obtain ⟨o2, g1, g2, g3, g4⟩ := linear_history_partial e kind z0 h8 _ hz
  have : o2 = o := by
    rw [h1] at g1
    exact (Except.ok.inj g1).symm
  subst this
  obtain ⟨c, hcj, hci⟩ := Option.map_eq_some_iff.1 hj
  have hs0 : (o2.sigma8 / e.sigma8) ^ 2 ≠ 0 := by
    have := (run_spec (init e kind z0) _ h8 hz ⟨rfl, rfl⟩)
    obtain ⟨o3, k1, -, -, -, -, -, -, k8⟩ := this
    rw [h1] at k1
    cases k1
    exact pow_ne_zero _ (div_ne_zero k8 h8)
  constructor
  · rw [← g2, ← g3]
    unfold call
    rw [hc, hcj]
    simp only [Option.bind_some]
    rw [hci, h2]
    simp only [Option.bind_some, Pow.value, Option.map_some]
    rw [← ht _ _ _ _ hs0, List.map_map]
    congr 1
    apply List.map_congr_left
    intro k _
    simp only [Function.comp, Option.map_some]
    unfold fn
    rw [g4]
    congr 1
    ring
  · refine ⟨c.attrsCosmo, ?_⟩
    unfold attrs
    rw [hc, hcj]
    simp only [Option.bind_some]
    rw [hci, h2, g2.symm, g3.symm]
    rfl

/-- C103: construction needs the three attributes. -/
theorem new_iff (cosmo0 : ℝ) (w : World) (i : Nat) (p : Pow) :
    (∃ w', new cosmo0 w i p = .ok w') ↔ p.has "redshift" ∧ p.has "sigma8" ∧ p.has "cosmo" := by
  unfold new
  by_cases h : ["redshift", "sigma8", "cosmo"].all p.has
  · rw [if_pos h]
    simp at h
    simp [h]
  · rw [if_neg h]
    simp at h ⊢
    exact h

/-- Linear and Halofit power are accepted.  **C103 fails** for the galaxy power, whose `sigma8` is documented but missing. -/
theorem new_cases (cosmo0 : ℝ) (w : World) (i : Nat) :
    (∀ o, ∃ w', new cosmo0 w i (.lin o) = .ok w') ∧ (∀ a b c d, ∃ w', new cosmo0 w i (.halofit a b c d) = .ok w') ∧
    ∀ o, new cosmo0 w i (.fnl o) = .error .attributeError := by
  refine ⟨fun o => (new_iff _ _ _ _).2 (by simp [Pow.has]), fun a b c d => (new_iff _ _ _ _).2 (by simp [Pow.has]), fun o => ?_⟩
  unfold new
  rw [if_neg]
  have : (Pow.fnl o).has "sigma8" = false := by simp [Pow.has]
  simp [this]

/-- The smoothing is that of a field smoothed with a Gaussian of this standard deviation in configuration space; none for 0. -/
theorem damp_spec (s k : ℝ) : damp s k = Real.exp (-(k ^ 2 * s ^ 2) / 2) ^ 2 ∧ damp 0 k = 1 ∧ 0 < damp s k ∧ damp s k ≤ 1 := by
  refine ⟨?_, by simp [damp], Real.exp_pos _, ?_⟩
  · unfold damp
    rw [← Real.exp_nat_mul]
    congr 1
    push_cast; ring
  · unfold damp
    rw [Real.exp_le_one_iff]
    nlinarith [sq_nonneg (k * s)]

/-- **C103 fails**: it is not a Gaussian in `k` with this standard deviation, as the documentation says. -/
theorem damp_not_documented (s k : ℝ) (hs : 1 < s) (hk : k ≠ 0) : damp s k ≠ Real.exp (-k ^ 2 / (2 * s ^ 2)) := by
  unfold damp
  intro h
  have h := Real.exp_injective h
  have hk2 : 0 < k ^ 2 := by positivity
  have hs2 : 1 < s ^ 2 := by nlinarith
  have h3 : k ^ 2 * (2 * s ^ 2 * s ^ 2 - 1) = 0 := by
    field_simp at h
    nlinarith
  have : 0 < 2 * s ^ 2 * s ^ 2 - 1 := by nlinarith
  have := mul_pos hk2 this
  linarith

/-- **C103 fails**: after a change of `sigma8` of a Halofit power the `attrs` hold the cosmology of the time of construction, while
`cosmo` is the matched one. -/
theorem attrs_stale (cosmo0 s0 z v : ℝ) (hv : v ≠ s0) :
    ∃ w w' : World, new cosmo0 ⟨[.halofit z s0 s0 s0], []⟩ 0 (.halofit z s0 s0 s0) = .ok w ∧
      run w [.cf 0 (.sigma8 v)] = .ok w' ∧ cosmo cosmo0 w' 0 = some v ∧ attrs w' 0 = some (z, v, s0) ∧
      attrs w' 0 ≠ some (z, v, v) := by
  refine ⟨⟨[.halofit z s0 s0 s0], [⟨0, s0⟩]⟩, ⟨[.halofit z v v v], [⟨0, s0⟩]⟩, ?_, rfl, rfl, rfl, ?_⟩
  · unfold new
    rw [if_pos (by simp [Pow.has])]; rfl
  · simp [attrs, Pow.redshift, Pow.sigma8, Ne.symm hv]

/-! ## The galaxy power -/

theorem call_eq (e : Env ℝ) (o : FNL) (k : ℝ) (hk : k ≠ 0) (hP : 0 < o.linear e k) (hz : -1 < o.z) :
    o.totalBias e k = some (o.b + 3 * o.fnl * (o.b - o.p) * 1.686 * o.omegaM * (o.H0 / o.c) ^ 2 * (1 + o.z) /
      (k ^ 2 * Real.sqrt (o.linear e k))) := by
  have h1 : 0 < 1 + o.z := by linarith
  have h2 := Real.sqrt_pos.2 hP
  have hk2 : 0 < k ^ 2 := by positivity
  unfold FNL.totalBias
  dsimp only
  rw [if_neg (by positivity)]
  congr 2
  field_simp

/-- C104: without non-Gaussianity, or for `b0 = p`, the power is the linear one times the square of the bias. -/
theorem gaussian_partial (e : Env ℝ) (o : FNL) (k : ℝ) (hk : k ≠ 0) (hP : 0 < o.linear e k) (hz : -1 < o.z)
    (h : o.fnl = 0 ∨ o.b = o.p) : o.call e k = some (o.b ^ 2 * o.linear e k) := by
  unfold FNL.call
  rw [call_eq e o k hk hP hz]
  have : 3 * o.fnl * (o.b - o.p) = 0 := by
    rcases h with h | h
    · rw [h]; ring
    · rw [h]; ring
  rw [this]
  simp only [Option.map_some, zero_mul, zero_div, add_zero]
  congr 1; ring

/-- **C104 fails** where the linear power is zero, as at `k = 0`: the result is not zero but undefined, even without
non-Gaussianity. -/
theorem gaussian_zero (e : Env ℝ) (o : FNL) (k : ℝ) (h : k = 0 ∨ o.linear e k = 0) : o.call e k = none := by
  unfold FNL.call FNL.totalBias
  dsimp only
  rw [if_pos]
  · rfl
  · rcases h with h | h
    · rw [h]; ring
    · rw [h]; simp

/-- The published bias (Dalal et al. 2008, Slosar et al. 2008) with the transfer function `T`, 1 at large scales, and the growth factor
`D`. -/
def published (o : FNL) (T D k : ℝ) : ℝ := o.b + 3 * o.fnl * (o.b - o.p) * 1.686 * o.omegaM / (k ^ 2 * T * D) * (o.H0 / o.c) ^ 2

/-- C104: the bias is the published one exactly where the root of the power over `1 + z` is the product of transfer function and
growth. -/
theorem bias_published_partial (e : Env ℝ) (o : FNL) (k T D : ℝ) (hk : k ≠ 0) (hP : 0 < o.linear e k) (hz : -1 < o.z) (hT : 0 < T)
    (hD : 0 < D) (hf : o.fnl ≠ 0) (hb : o.b ≠ o.p) (hm : o.omegaM ≠ 0) (hH : o.H0 ≠ 0) (hc : o.c ≠ 0) :
    o.totalBias e k = some (published o T D k) ↔ Real.sqrt (o.linear e k) / (1 + o.z) = T * D := by
  have h1 : 0 < 1 + o.z := by linarith
  have h2 := Real.sqrt_pos.2 hP
  have hk2 : 0 < k ^ 2 := by positivity
  have hb' : o.b - o.p ≠ 0 := sub_ne_zero.2 hb
  rw [call_eq e o k hk hP hz, Option.some.injEq, published, add_right_inj]
  set A := 3 * o.fnl * (o.b - o.p) * 1.686 * o.omegaM with hA
  have hA0 : A ≠ 0 := by
    rw [hA]
    refine mul_ne_zero (mul_ne_zero (mul_ne_zero (mul_ne_zero (by norm_num) hf) hb') (by norm_num)) hm
  have hq : (o.H0 / o.c) ^ 2 ≠ 0 := pow_ne_zero _ (div_ne_zero hH hc)
  set q := (o.H0 / o.c) ^ 2
  set S := Real.sqrt (o.linear e k)
  rw [show A / (k ^ 2 * T * D) * q = A * q / (k ^ 2 * T * D) by ring, div_eq_div_iff (by positivity) (by positivity),
    div_eq_iff h1.ne']
  constructor
  · intro h
    have h : A * q * k ^ 2 * ((T * D) * (1 + o.z)) = A * q * k ^ 2 * S := by linear_combination h
    have := mul_left_cancel₀ (mul_ne_zero (mul_ne_zero hA0 hq) hk2.ne') h
    linarith
  · intro h
    linear_combination -(A * q * k ^ 2) * h

/-- The power of a cosmology with other fluctuations. -/
theorem linear_sigma8_scale (e : Env ℝ) (kind : Kind) (z k c : ℝ) :
    fn { e with sigma8 := c * e.sigma8 } (init { e with sigma8 := c * e.sigma8 } kind z) k = c ^ 2 * fn e (init e kind z) k := by
  unfold fn
  rw [call_norm, call_norm e]
  have h1 : (init { e with sigma8 := c * e.sigma8 } kind z).norm = c ^ 2 * (init e kind z).norm := by
    have : fn { e with sigma8 := c * e.sigma8 } (Power.setRedshift (K := ℝ)
        { kind := kind, norm := 1, sigma8 := c * e.sigma8, z := z, transferZ := z, fallbackZ := z } 0) =
        fn e (Power.setRedshift { kind := kind, norm := 1, sigma8 := e.sigma8, z := z, transferZ := z, fallbackZ := z } 0) := by
      funext k
      cases kind <;> rfl
    simp only [init]
    simp only [Power.setRedshift] at this ⊢
    rw [this]
    ring
  have h2 : Power.call { e with sigma8 := c * e.sigma8 } { init { e with sigma8 := c * e.sigma8 } kind z with norm := 1 } false false k =
      Power.call e { init e kind z with norm := 1 } false false k := by
    cases kind <;> rfl
  rw [h1, h2]
  ring

/-- **C104 fails**: the published bias does not depend on the amplitude of the fluctuations; that of the code is off by the factor
between two amplitudes. -/
theorem bias_amplitude (e : Env ℝ) (o : FNL) (k c : ℝ) (hc : 0 < c) (hk : k ≠ 0) (hP : 0 < o.linear e k) (hz : -1 < o.z) :
    ∃ t t', o.totalBias e k = some t ∧ o.totalBias { e with sigma8 := c * e.sigma8 } k = some t' ∧ c * (t' - o.b) = t - o.b := by
  have hl : o.linear { e with sigma8 := c * e.sigma8 } k = c ^ 2 * o.linear e k := linear_sigma8_scale e o.kind o.z k c
  have hP' : 0 < o.linear { e with sigma8 := c * e.sigma8 } k := by rw [hl]; positivity
  refine ⟨_, _, call_eq e o k hk hP hz, call_eq _ o k hk hP' hz, ?_⟩
  have h2 := Real.sqrt_pos.2 hP
  have hk2 : 0 < k ^ 2 := by positivity
  rw [hl, Real.sqrt_mul (by positivity), Real.sqrt_sq hc.le]
  field_simp
  ring

/-- **C104 fails**: the growth of the power is counted on top of `1 / (1 + z)`: with a fitting formula the correction to the bias grows by
`(1 + z) / D(z)` from redshift 0 instead of `1 / D(z)`. -/
theorem bias_redshift (e : Env ℝ) (o : FNL) (k : ℝ) (hk : 0 < k) (hkind : o.kind ≠ .CLASS) (hg0 : e.growth 0 = 1)
    (hg : 0 < e.growth o.z) (hz : -1 < o.z) (hP : 0 < ({ o with z := 0 } : FNL).linear e k) :
    ∃ t t0, o.totalBias e k = some t ∧ ({ o with z := 0 } : FNL).totalBias e k = some t0 ∧
      (t - o.b) * e.growth o.z = (1 + o.z) * (t0 - o.b) := by
  have hl : o.linear e k = e.growth o.z ^ 2 * ({ o with z := 0 } : FNL).linear e k := by
    unfold FNL.linear fn
    rw [call_norm, call_norm e (init e _ _)]
    have : (init e o.kind o.z).norm = (init e o.kind 0).norm := rfl
    rw [this]
    dsimp only
    cases hk' : o.kind with
    | CLASS => exact absurd hk' hkind
    | EisensteinHu =>
      simp only [Power.call, init, Power.setRedshift, transferCall, ehCall, Bool.false_eq_true, false_and, if_false, if_pos hk, hg0]
      ring
    | NoWiggleEisensteinHu =>
      simp only [Power.call, init, Power.setRedshift, transferCall, ehCall, Bool.false_eq_true, false_and, if_false, if_pos hk, hg0]
      ring
  have hP' : 0 < o.linear e k := by rw [hl]; positivity
  refine ⟨_, _, call_eq e o k hk.ne' hP' hz, call_eq e _ k hk.ne' hP (by simp), ?_⟩
  have h2 := Real.sqrt_pos.2 hP
  have hk2 : 0 < k ^ 2 := by positivity
  rw [hl, Real.sqrt_mul (by positivity), Real.sqrt_sq hg.le]
  dsimp only
  field_simp
  ring

/-- A case: one power with two correlation functions; a redshift set through the second one reaches the first. -/
theorem xi_case (e : Env ℝ) : let o := init e .EisensteinHu 0
    let w : World := ⟨[.lin o], [⟨0, 1⟩, ⟨0, 1⟩]⟩
    ∃ w', run w [.cf 1 (.redshift 2), .pow 0 (.redshift 1)] = .ok w' ∧ (attrs w' 0).map (·.1) = some 1 ∧
      opsOn w.cfs 0 [.cf 1 (.redshift 2), .pow 0 (.redshift 1)] = [.redshift 2, .redshift 1] ∧
      NonZero (opsOn w.cfs 0 [.cf 1 (.redshift 2), .pow 0 (.redshift 1)]) := by
  refine ⟨_, rfl, rfl, ?_, ?_⟩ <;> simp [opsOn, target, opOf, NonZero]

/-- A homogeneous transform: the value at the first wavenumber. -/
theorem transform_case : Homogeneous fun _ Ps _ => Ps.head?.join := by
  intro c ks Ps r _
  cases Ps with
  | nil => rfl
  | cons P Ps => simp

end NBK.Xi
