import Verif.ProjPower.Model
import Verif.Hermitian.Props
import Mathlib.Data.List.GetD
import Mathlib.Tactic.Linarith
import Mathlib.Tactic.FieldSimp
import Mathlib.Tactic.Ring

/-! # The projected power is the mean over the modes of the projected field -/

set_option linter.unusedSimpArgs false

namespace NBK.ProjPower

open scoped ComplexConjugate
open Hermitian (neg)

theorem phase_zero (n x : ℕ) : phase n 0 x = 1 := by simp [phase]

/-- The coefficient of the three dimensional transform of the field at a mode. -/
noncomputable def coeff3d (g : Grid) (δ : ℕ → ℕ → ℕ → ℝ) (i j l : ℕ) : ℂ :=
  (∑ x ∈ Finset.range g.rows, ∑ y ∈ Finset.range g.N, ∑ h ∈ Finset.range g.nOther,
    (δ x y h : ℂ) * phase g.rows i x * phase g.N j y * phase g.nOther l h) / ((g.rows : ℂ) * g.N * g.nOther)

/-- **C90.** The coefficients are those of the full field at the modes with zero wavenumber along the projected axes. -/
theorem coeff_eq (g : Grid) (δ : ℕ → ℕ → ℕ → ℝ) (i j : ℕ) : coeff g δ i j = coeff3d g δ i j 0 := by
  unfold coeff coeff3d preview
  simp only [Hermitian.listsum_range, phase_zero, mul_one]
  push_cast
  congr 1
  apply Finset.sum_congr rfl
  intro x _
  apply Finset.sum_congr rfl
  intro y _
  rw [Finset.sum_mul, Finset.sum_mul]

theorem phase_neg (n k x : ℕ) (hk : k < n) : phase n (neg n k) x = conj (phase n k x) := by
  have hn : (n : ℝ) ≠ 0 := by
    have : 0 < n := by omega
    positivity
  have hc : conj (phase n k x) = Complex.exp ((2 * Real.pi * k * x / n : ℝ) * Complex.I) := by
    unfold phase
    rw [← Complex.exp_conj]
    congr 1
    rw [map_mul, map_neg, Complex.conj_ofReal, Complex.conj_I]
    ring
  rw [hc]
  unfold phase neg
  by_cases h0 : k = 0
  · subst h0
    simp
  · rw [Nat.mod_eq_of_lt (by omega), Complex.exp_eq_exp_iff_exists_int]
    refine ⟨-(x : ℤ), ?_⟩
    have : ((n - k : ℕ) : ℝ) = (n : ℝ) - k := by
      rw [Nat.cast_sub (by omega)]
    rw [this]
    push_cast
    have hn' : (n : ℂ) ≠ 0 := by exact_mod_cast hn
    field_simp
    ring

/-- Real fields: the coefficient of the opposite mode is the conjugate. -/
theorem coeff_neg (g : Grid) (δ : ℕ → ℕ → ℕ → ℝ) (i j : ℕ) (hi : i < g.rows) (hj : j < g.N) :
    coeff g δ (neg g.rows i) (neg g.N j) = conj (coeff g δ i j) := by
  unfold coeff
  simp only [Hermitian.listsum_range, map_div₀, map_sum, map_mul, Complex.conj_ofReal, Complex.conj_natCast, phase_neg _ _ _ hi, phase_neg _ _ _ hj]

theorem neg_zero_iff (n k : ℕ) (hk : k < n) : neg n k = 0 ↔ k = 0 := by
  unfold neg
  constructor
  · intro h
    by_contra h0
    rw [Nat.mod_eq_of_lt (by omega)] at h
    omega
  · rintro rfl
    simp

theorem pk_neg (g : Grid) (δ1 δ2 : ℕ → ℕ → ℕ → ℝ) (i j : ℕ) (hi : i < g.rows) (hj : j < g.N) :
    pk g δ1 δ2 (neg g.rows i) (neg g.N j) = conj (pk g δ1 δ2 i j) := by
  unfold pk
  simp only [neg_zero_iff _ _ hi, neg_zero_iff _ _ hj, coeff_neg g _ i j hi hj]
  split
  · simp
  · rw [map_mul]

theorem freq_neg_sq (n k : ℕ) (hk : k < n) : (Hermitian.freq n (neg n k)) ^ 2 = (Hermitian.freq n k) ^ 2 := by
  unfold Hermitian.freq neg
  by_cases h0 : k = 0
  · subst h0
    simp
  · rw [Nat.mod_eq_of_lt (by omega)]
    have e : ((n - k : ℕ) : ℤ) = n - k := by omega
    by_cases h1 : 2 * k < n
    · rw [if_neg (by omega), if_pos h1, e]
      ring
    · by_cases h2 : 2 * k = n
      · rw [if_neg (by omega), if_neg h1, e, ← h2]
        push_cast
        ring
      · rw [if_pos (by omega), if_neg h1, e]
        ring

theorem kmag_neg (g : Grid) (i j : ℕ) (hi : i < g.rows) (hj : j < g.N) : kmag g (neg g.rows i) (neg g.N j) = kmag g i j := by
  unfold kmag
  simp only [mul_pow]
  have h1 : ((Hermitian.freq g.rows (neg g.rows i) : ℤ) : ℝ) ^ 2 = (Hermitian.freq g.rows i : ℝ) ^ 2 := by
    exact_mod_cast freq_neg_sq g.rows i hi
  have h2 : ((Hermitian.freq g.N (neg g.N j) : ℤ) : ℝ) ^ 2 = (Hermitian.freq g.N j : ℝ) ^ 2 := by
    exact_mod_cast freq_neg_sq g.N j hj
  rw [h1, h2]

/-- The wavenumber of a mode: along each axis the multiple of `2π/L` that gives the same phases and lies between minus and plus the Nyquist frequency. -/
theorem kmag_spec (g : Grid) (i j : ℕ) (hi : i < g.rows) (hj : j < g.N) (m1 m2 : ℤ) (h1 : m1 % g.rows = i) (h2 : m2 % g.N = j)
    (b1 : -(g.rows : ℤ) ≤ 2 * m1) (c1 : 2 * m1 < g.rows) (b2 : -(g.N : ℤ) ≤ 2 * m2) (c2 : 2 * m2 < g.N) :
    kmag g i j = Real.sqrt ((2 * Real.pi / g.Lrow * m1) ^ 2 + (2 * Real.pi / g.L * m2) ^ 2) := by
  have key : ∀ (n k : ℕ) (m : ℤ), k < n → m % n = k → -(n : ℤ) ≤ 2 * m → 2 * m < n → Hermitian.freq n k = m := by
    intro n k m hk h b c
    unfold Hermitian.freq
    rcases lt_or_ge m 0 with h0 | h0
    · have e : m % n = m + n := by
        rw [← Int.add_mul_emod_self_left m n 1, mul_one]
        exact Int.emod_eq_of_lt (by omega) (by omega)
      rw [e] at h
      rw [if_neg (by omega)]
      omega
    · rw [Int.emod_eq_of_lt h0 (by omega)] at h
      rw [if_pos (by omega)]
      omega
  unfold kmag
  rw [key g.rows i m1 hi h1 b1 c1, key g.N j m2 hj h2 b2 c2, mul_comm (m1 : ℝ), mul_comm (m2 : ℝ)]

/-- `digitize` finds the bin. -/
theorem digitize_iff (edges : List ℝ) (hs : edges.Pairwise (· < ·)) (v : ℝ) (b : ℕ) (hb : b + 1 < edges.length) :
    digitize edges v = b + 1 ↔ edges.getD b 0 ≤ v ∧ v < edges.getD (b + 1) 0 := by
  classical
  unfold digitize
  induction edges generalizing b with
  | nil => simp at hb
  | cons a l ih =>
    obtain ⟨h1, h2⟩ := List.pairwise_cons.mp hs
    by_cases ha : a ≤ v
    · rw [List.filter_cons_of_pos (by simpa using ha), List.length_cons]
      cases b with
      | zero =>
        cases l with
        | nil => simp at hb
        | cons c l =>
          simp only [Nat.zero_add, Nat.add_eq_right, List.length_eq_zero_iff, List.getD_cons_zero, List.getD_cons_succ, ha, true_and,
            List.filter_eq_nil_iff, decide_eq_true_eq, not_le]
          constructor
          · intro h
            exact h c (List.mem_cons_self ..)
          · intro h e he
            rcases List.mem_cons.mp he with rfl | he
            · exact h
            · exact h.trans ((List.pairwise_cons.mp h2).1 e he)
      | succ b =>
        have := ih h2 b (by simpa using hb)
        simp only [List.getD_cons_succ, Nat.add_right_cancel_iff]
        exact this
    · have hnone : (l.filter fun e => decide (e ≤ v)) = [] := by
        rw [List.filter_eq_nil_iff]
        intro e he
        simp only [decide_eq_true_eq, not_le]
        exact (not_le.mp ha).trans (h1 e he)
      rw [List.filter_cons_of_neg (by simpa using ha), hnone]
      simp only [List.length_nil]
      constructor
      · intro h
        omega
      · rintro ⟨h, _⟩
        exfalso
        apply ha
        cases b with
        | zero => simpa using h
        | succ b =>
          have hbl : b < l.length := by simp at hb; omega
          rw [List.getD_cons_succ, List.getD_eq_getElem _ _ hbl] at h
          exact ((h1 _ (List.getElem_mem hbl)).trans_le h).le

open Classical in
/-- The modes of the full plane in a bin. -/
noncomputable def modesIn (g : Grid) (edges : List ℝ) (b : ℕ) : Finset (ℕ × ℕ) :=
  (Finset.range g.rows ×ˢ Finset.range g.N).filter fun p => edges.getD b 0 ≤ kmag g p.1 p.2 ∧ kmag g p.1 p.2 < edges.getD (b + 1) 0

/-- **C90 (partial).** For an even number of cells along the last axis, each sum is that over all modes of the plane with `k` in the bin. -/
theorem binSum_partial (g : Grid) (hN : g.N = 1 ∨ g.N % 2 = 0) (h0 : 0 < g.N) (edges : List ℝ) (hs : edges.Pairwise (· < ·)) (b : ℕ)
    (hb : b + 1 < edges.length) (f : ℕ → ℕ → ℝ) (hf : ∀ i j, i < g.rows → j < g.N → f (neg g.rows i) (neg g.N j) = f i j) :
    binSum g edges f (b + 1) = ∑ p ∈ modesIn g edges b, f p.1 p.2 := by
  classical
  unfold binSum
  rw [Hermitian.proj_sum_partial g.rows g.N h0 hN _ (by
    intro i j hi hj
    rw [kmag_neg g i j hi hj, hf i j hi hj])]
  simp only [Hermitian.listsum_range]
  unfold modesIn
  rw [Finset.sum_filter, Finset.sum_product]
  apply Finset.sum_congr rfl
  intro i _
  apply Finset.sum_congr rfl
  intro j _
  simp only [digitize_iff edges hs _ b hb]

/-- **C90 (partial).** For an even number of cells along the last axis: the result in a bin is the mean of `k` and the mean of the (real part of the) power over all
modes of the projected field in the bin, times the product of the lengths kept, and `modes` is their number. Missing (false): odd numbers of cells, and
the imaginary part. -/
theorem result_partial (g : Grid) (twoD : Bool) (hN : g.N = 1 ∨ g.N % 2 = 0) (h0 : 0 < g.N) (edges : List ℝ) (hs : edges.Pairwise (· < ·))
    (δ1 δ2 : ℕ → ℕ → ℕ → ℝ) (b : ℕ) (hb : b + 1 < edges.length) :
    let S := modesIn g edges b
    (result g twoD edges δ1 δ2 b).1 = (∑ p ∈ S, kmag g p.1 p.2) / S.card ∧
    (result g twoD edges δ1 δ2 b).2.1 = (∑ p ∈ S, if p = (0, 0) then 0 else (coeff3d g δ1 p.1 p.2 0 * conj (coeff3d g δ2 p.1 p.2 0)).re) / S.card *
      (if twoD then g.Lrow * g.L else g.L) ∧
    (result g twoD edges δ1 δ2 b).2.2.2 = S.card := by
  have hn : binSum g edges (fun _ _ => 1) (b + 1) = (modesIn g edges b).card := by
    rw [binSum_partial g hN h0 edges hs b hb _ (fun _ _ _ _ => rfl)]
    simp
  refine ⟨?_, ?_, hn⟩
  · simp only [result, hn]
    rw [binSum_partial g hN h0 edges hs b hb _ (fun i j hi hj => kmag_neg g i j hi hj)]
  · simp only [result, hn, area]
    rw [binSum_partial g hN h0 edges hs b hb _ (fun i j hi hj => by rw [pk_neg g δ1 δ2 i j hi hj, Complex.conj_re])]
    congr 2
    apply Finset.sum_congr rfl
    intro p _
    unfold pk
    simp only [coeff_eq, Prod.ext_iff]
    by_cases h : p.1 = 0 ∧ p.2 = 0
    · rw [if_pos h, if_pos h]
      rfl
    · rw [if_neg h, if_neg h]

/-- The imaginary parts of opposite modes cancel in the plane, for every number of cells. -/
theorem imag_cancels (g : Grid) (edges : List ℝ) (δ1 δ2 : ℕ → ℕ → ℕ → ℝ) (b : ℕ) :
    ∑ p ∈ modesIn g edges b, (pk g δ1 δ2 p.1 p.2).im = 0 := by
  classical
  have h : ∑ p ∈ modesIn g edges b, (pk g δ1 δ2 p.1 p.2).im = ∑ p ∈ modesIn g edges b, -(pk g δ1 δ2 p.1 p.2).im := by
    have hmem : ∀ p ∈ modesIn g edges b, p.1 < g.rows ∧ p.2 < g.N := by
      intro p hp
      simp only [modesIn, Finset.mem_filter, Finset.mem_product, Finset.mem_range] at hp
      exact hp.1
    have hneg : ∀ p ∈ modesIn g edges b, (neg g.rows p.1, neg g.N p.2) ∈ modesIn g edges b := by
      intro p hp
      obtain ⟨h1, h2⟩ := hmem p hp
      simp only [modesIn, Finset.mem_filter, Finset.mem_product, Finset.mem_range] at hp ⊢
      rw [kmag_neg g _ _ h1 h2]
      exact ⟨⟨Nat.mod_lt _ (by omega), Nat.mod_lt _ (by omega)⟩, hp.2⟩
    have hnn : ∀ n k : ℕ, k < n → neg n (neg n k) = k := by
      intro n k hk
      unfold neg
      by_cases h0 : k = 0
      · subst h0; simp
      · rw [Nat.mod_eq_of_lt (show n - k < n by omega), Nat.mod_eq_of_lt (by omega)]
        omega
    apply Finset.sum_nbij' (fun p => (neg g.rows p.1, neg g.N p.2)) (fun p => (neg g.rows p.1, neg g.N p.2)) hneg hneg
    · intro p hp
      obtain ⟨h1, h2⟩ := hmem p hp
      simp [hnn _ _ h1, hnn _ _ h2]
    · intro p hp
      obtain ⟨h1, h2⟩ := hmem p hp
      simp [hnn _ _ h1, hnn _ _ h2]
    · intro p hp
      obtain ⟨h1, h2⟩ := hmem p hp
      simp only [pk_neg g δ1 δ2 _ _ h1 h2, Complex.conj_im]
      ring
  rw [Finset.sum_neg_distrib] at h
  linarith

/-- **C90 does not hold** for an odd number of cells along the last axis: with all modes in one bin, `modes` misses one mode in each row. -/
theorem odd_modes (g : Grid) (twoD : Bool) (m : ℕ) (hm : 0 < m) (hN : g.N = 2 * m + 1) (a b : ℝ) (hab : a < b)
    (hall : ∀ i < g.rows, ∀ j < g.N, a ≤ kmag g i j ∧ kmag g i j < b) (δ1 δ2 : ℕ → ℕ → ℕ → ℝ) :
    (result g twoD [a, b] δ1 δ2 0).2.2.2 = g.rows * (2 * m) ∧ (modesIn g [a, b] 0).card = g.rows * (2 * m + 1) := by
  classical
  have hs : [a, b].Pairwise (· < ·) := by simpa using hab
  constructor
  · have h : binSum g [a, b] (fun _ _ => 1) 1 = Hermitian.projSum g.rows (2 * m + 1) (fun _ _ => (1 : ℝ)) := by
      unfold binSum Hermitian.projSum
      rw [hN]
      simp only [Hermitian.listsum_range]
      apply Finset.sum_congr rfl
      intro i hi
      apply Finset.sum_congr rfl
      intro j hj
      have hj' : j < g.N := by
        have := Finset.mem_range.mp hj
        omega
      have := hall i (Finset.mem_range.mp hi) j hj'
      rw [if_pos ((digitize_iff [a, b] hs _ 0 (by simp)).mpr (by simpa using this))]
    have h2 : Hermitian.projSum g.rows (2 * m + 1) (fun _ _ => (1 : ℝ)) = ((Hermitian.projSum g.rows (2 * m + 1) (fun _ _ => (1 : ℕ)) : ℕ) : ℝ) := by
      unfold Hermitian.projSum
      simp only [Hermitian.listsum_range]
      push_cast
      simp
    simp only [result, zero_add]
    rw [h, h2, Hermitian.proj_odd_wrong g.rows m hm]
    push_cast
    ring
  · have : modesIn g [a, b] 0 = Finset.range g.rows ×ˢ Finset.range g.N := by
      unfold modesIn
      apply Finset.filter_true_of_mem
      intro p hp
      simp only [Finset.mem_product, Finset.mem_range] at hp
      simpa using hall p.1 hp.1 p.2 hp.2
    rw [this, Finset.card_product, Finset.card_range, Finset.card_range, hN]

/-- Four cells of a line of length 2π. -/
noncomputable def line4 : Grid := ⟨1, 4, 1, 1, 2 * Real.pi⟩

/-- **C90 does not hold** for the imaginary part: the mean over the modes of the plane is 0 (`imag_cancels`), but only one of two opposite modes is summed: for a
field in the first cell and one in the second the result is π/8 in the bin of `k = 1`. -/
theorem imag_kept : (result line4 false [1 / 2, 3 / 2] (fun _ y _ => if y = 0 then 1 else 0) (fun _ y _ => if y = 1 then 1 else 0) 0).2.2.1 = Real.pi / 8 := by
  classical
  have hpi := Real.pi_ne_zero
  have hk : ∀ j, kmag line4 0 j = |(Hermitian.freq 4 j : ℝ)| := by
    intro j
    unfold kmag line4
    have h1 : (2 * Real.pi / (2 * Real.pi) : ℝ) = 1 := by field_simp
    have h0 : Hermitian.freq 1 0 = 0 := rfl
    simp only [h1, h0, mul_one, Int.cast_zero, zero_mul]
    rw [← Real.sqrt_sq_eq_abs]
    congr 1
    ring
  have hs : ([1 / 2, 3 / 2] : List ℝ).Pairwise (· < ·) := by norm_num
  have d : ∀ j, digitize [1 / 2, 3 / 2] (kmag line4 0 j) = 1 ↔ (1 / 2 : ℝ) ≤ |(Hermitian.freq 4 j : ℝ)| ∧ |(Hermitian.freq 4 j : ℝ)| < 3 / 2 := by
    intro j
    rw [digitize_iff _ hs _ 0 (by simp), hk j]
    simp
  have f0 : Hermitian.freq 4 0 = 0 := rfl
  have f1 : Hermitian.freq 4 1 = 1 := rfl
  have f2 : Hermitian.freq 4 2 = -2 := rfl
  have d0 : ¬ digitize [1 / 2, 3 / 2] (kmag line4 0 0) = 1 := by rw [d, f0]; norm_num
  have d1 : digitize [1 / 2, 3 / 2] (kmag line4 0 1) = 1 := by rw [d, f1]; norm_num
  have d2 : ¬ digitize [1 / 2, 3 / 2] (kmag line4 0 2) = 1 := by rw [d, f2]; norm_num
  have hb : ∀ f : ℕ → ℕ → ℝ, binSum line4 [1 / 2, 3 / 2] f 1 = 2 * f 0 1 := by
    intro f
    unfold binSum Hermitian.projSum
    have w0 : Hermitian.projWeight 4 0 = 1 := rfl
    have w1 : Hermitian.projWeight 4 1 = 2 := rfl
    have w2 : Hermitian.projWeight 4 2 = 1 := rfl
    have hr : List.range line4.rows = [0] := rfl
    have hn : List.range (line4.N / 2 + 1) = [0, 1, 2] := rfl
    have hN : line4.N = 4 := rfl
    rw [hr, hn, hN]
    simp only [List.map_cons, List.map_nil, List.sum_cons, List.sum_nil, w0, w1, w2, if_pos d1, if_neg d0, if_neg d2]
    simp
  have hphase : phase 4 1 1 = -Complex.I := by
    unfold phase
    have : (-(2 * Real.pi * (1 : ℕ) * (1 : ℕ) / (4 : ℕ) : ℝ) : ℂ) * Complex.I = -(Real.pi / 2 * Complex.I) := by
      push_cast
      ring
    rw [this, Complex.exp_neg, Complex.exp_pi_div_two_mul_I]
    simp
  have hc : ∀ c : ℕ, c < 4 → coeff line4 (fun _ y _ => if y = c then 1 else 0) 0 1 = phase 4 1 c / 4 := by
    intro c hc
    unfold coeff preview line4
    simp only [Hermitian.listsum_range, Finset.sum_range_one, phase_zero, mul_one]
    have : ∀ y ∈ Finset.range 4, (((if y = c then 1 else 0 : ℝ)) : ℂ) * phase 4 1 y = if y = c then phase 4 1 y else 0 := by
      intro y _
      split <;> simp
    rw [Finset.sum_congr rfl this, Finset.sum_ite_eq' (Finset.range 4) c]
    simp [hc]
  have hp0 : phase 4 1 0 = 1 := by simp [phase]
  simp only [result, zero_add, hb, area]
  rw [pk, if_neg (by simp), hc 0 (by norm_num), hc 1 (by norm_num), hphase, hp0]
  simp [line4, Complex.div_im, Complex.div_re]
  ring

/-- The hypotheses of `result_partial` are met. -/
example : (line4.N = 1 ∨ line4.N % 2 = 0) ∧ 0 < line4.N ∧ ([1 / 2, 3 / 2] : List ℝ).Pairwise (· < ·) :=
  ⟨Or.inr rfl, by norm_num [line4], by norm_num⟩

end NBK.ProjPower
