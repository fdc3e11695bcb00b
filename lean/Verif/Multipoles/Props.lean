import Verif.Multipoles.Lemmas
import Verif.Estim.Model
import Mathlib.Topology.Algebra.Order.LiminfLimsup
import Mathlib.Analysis.SpecificLimits.Basic

/-! # C102: multipoles from wedges -/
set_option linter.unusedSimpArgs false
noncomputable section
namespace NBK.Multipoles
open Polynomial Ylm MeasureTheory

/-- The Legendre polynomials are orthogonal on `[-1, 1]`. -/
theorem legendre_orthogonal (l k : Nat) :
    ∫ x in (-1 : ℝ)..1, (legendre l).eval x * (legendre k).eval x = if l = k then 2 / (2 * (l : ℝ) + 1) else 0 := by
  have e : (∫ x in (-1 : ℝ)..1, (legendre l).eval x * (legendre k).eval x) = I (legendre l * legendre k) := by
    unfold I; simp only [eval_mul]
  rw [e]
  split
  · next h =>
    subst h
    rw [eq_div_iff (by positivity), mul_comm]
    exact norm_sq l
  · next h => exact orthogonal h

/-- On `[0, 1]` those of the same parity are. -/
theorem legendre_half (l k : Nat) (h : (l + k) % 2 = 0) :
    ∫ x in (0 : ℝ)..1, (legendre l).eval x * (legendre k).eval x = if l = k then 1 / (2 * (l : ℝ) + 1) else 0 := by
  have hf := legendre_orthogonal l k
  have hi : ∀ a b : ℝ, IntervalIntegrable (fun x => (legendre l).eval x * (legendre k).eval x) volume a b := fun a b =>
    ((legendre l).continuous.mul (legendre k).continuous).intervalIntegrable a b
  rw [← intervalIntegral.integral_add_adjacent_intervals (hi (-1) 0) (hi 0 1)] at hf
  have hneg : (∫ x in (-1 : ℝ)..0, (legendre l).eval x * (legendre k).eval x) =
      ∫ x in (0 : ℝ)..1, (legendre l).eval x * (legendre k).eval x := by
    have := intervalIntegral.integral_comp_neg (a := (0 : ℝ)) (b := 1) (fun x => (legendre l).eval x * (legendre k).eval x)
    rw [neg_zero] at this
    rw [← this]
    congr 1
    funext x
    rw [legendre_neg, legendre_neg]
    have : ((-1 : ℝ)) ^ l * (-1) ^ k = 1 := by
      rw [← pow_add]
      exact Even.neg_one_pow (Nat.even_iff.2 h)
    linear_combination ((legendre l).eval x * (legendre k).eval x) * this
  rw [hneg] at hf
  split at hf <;> rename_i hlk
  · rw [if_pos hlk]
    have : (2 : ℝ) / (2 * l + 1) = 2 * (1 / (2 * l + 1)) := by ring
    linarith
  · rw [if_neg hlk]; linarith

/-- The average of a function over each of the bins: what an ideal measurement yields. -/
def averages (ξ : ℝ → ℝ) (mu : List ℝ) : List ℝ := List.zipWith (fun a b => (∫ x in a..b, ξ x) / (b - a)) mu mu.tail

theorem poleSum_cons (ell : Nat) (c : ℝ) (corr : List ℝ) (a b : ℝ) (t : List ℝ) :
    poleSum ell (c :: corr) (a :: b :: t) =
      c * ((2 * ell + 1) * (legendre ell).eval ((b + a) / 2)) * (b - a) + poleSum ell corr (b :: t) := by
  simp [poleSum, muMid, muBins]

theorem muBins_sum (a : ℝ) (t : List ℝ) : (muBins (a :: t)).sum = (a :: t).getLast (by simp) - a := by
  induction t generalizing a with
  | nil => simp [muBins]
  | cons b t ih =>
    have : muBins (a :: b :: t) = (b - a) :: muBins (b :: t) := rfl
    rw [this, List.sum_cons, ih b, List.getLast_cons (a := a) (l := b :: t) (by simp)]
    ring

theorem last_ge (a : ℝ) (t : List ℝ) (hs : (a :: t).Pairwise (· < ·)) : a ≤ (a :: t).getLast (by simp) := by
  have := List.getLast_mem (show a :: t ≠ [] by simp)
  rcases List.mem_cons.1 this with h | h
  · exact h.ge
  · exact ((List.pairwise_cons.1 hs).1 _ h).le

/-- One bin. -/
theorem bin_error (ell : Nat) (ξ : ℝ → ℝ) (hξ : Continuous ξ) {M a b : ℝ} (ha : |a| ≤ 1) (hb : |b| ≤ 1) (hab : a < b)
    (hM : ∀ x, |x| ≤ 1 → |ξ x| ≤ M) :
    |(∫ x in a..b, ξ x) / (b - a) * (legendre ell).eval ((b + a) / 2) * (b - a) - ∫ x in a..b, ξ x * (legendre ell).eval x| ≤
      M * (ell * (ell + 1) / 2 * ((b - a) / 2)) * (b - a) := by
  have hne : b - a ≠ 0 := by linarith
  obtain ⟨ha1, ha2⟩ := abs_le.1 ha
  obtain ⟨hb1, hb2⟩ := abs_le.1 hb
  have hmid : |(b + a) / 2| ≤ 1 := abs_le.2 ⟨by linarith, by linarith⟩
  have e : (∫ x in a..b, ξ x) / (b - a) * (legendre ell).eval ((b + a) / 2) * (b - a) - ∫ x in a..b, ξ x * (legendre ell).eval x =
      ∫ x in a..b, ξ x * ((legendre ell).eval ((b + a) / 2) - (legendre ell).eval x) := by
    have : ∀ x, ξ x * ((legendre ell).eval ((b + a) / 2) - (legendre ell).eval x) =
        ξ x * (legendre ell).eval ((b + a) / 2) - ξ x * (legendre ell).eval x := fun x => by ring
    simp only [this]
    have c1 : Continuous fun x => ξ x * (legendre ell).eval ((b + a) / 2) := hξ.mul continuous_const
    have c2 : Continuous fun x => ξ x * (legendre ell).eval x := hξ.mul (legendre ell).continuous
    rw [intervalIntegral.integral_sub (c1.intervalIntegrable a b) (c2.intervalIntegrable a b), intervalIntegral.integral_mul_const]
    field_simp
  rw [e, ← Real.norm_eq_abs]
  have hk := intervalIntegral.norm_integral_le_of_norm_le_const (a := a) (b := b)
    (C := M * (ell * (ell + 1) / 2 * ((b - a) / 2)))
    (f := fun x => ξ x * ((legendre ell).eval ((b + a) / 2) - (legendre ell).eval x)) (by
      intro x hx
      rw [Set.uIoc_of_le hab.le] at hx
      obtain ⟨h1, h2⟩ := hx
      have hx1 : |x| ≤ 1 := abs_le.2 ⟨by linarith, by linarith⟩
      rw [Real.norm_eq_abs, abs_mul]
      have hl := legendre_lipschitz ell hmid hx1
      have hd : |(b + a) / 2 - x| ≤ (b - a) / 2 := abs_le.2 ⟨by linarith, by linarith⟩
      have hM0 : 0 ≤ M := (abs_nonneg _).trans (hM x hx1)
      refine mul_le_mul (hM x hx1) (hl.trans ?_) (abs_nonneg _) hM0
      gcongr)
  rw [abs_of_pos (show 0 < b - a by linarith)] at hk
  exact hk

theorem poleSum_error (ell : Nat) (ξ : ℝ → ℝ) (hξ : Continuous ξ) {M h : ℝ} (hM : ∀ x, |x| ≤ 1 → |ξ x| ≤ M) (a : ℝ) (t : List ℝ)
    (hs : (a :: t).Pairwise (· < ·)) (h1 : ∀ e ∈ a :: t, |e| ≤ 1) (hh : ∀ d ∈ muBins (a :: t), d ≤ h) :
    |poleSum ell (averages ξ (a :: t)) (a :: t) - (2 * ell + 1) * ∫ x in a..(a :: t).getLast (by simp), ξ x * (legendre ell).eval x| ≤
      (2 * ell + 1) * (M * (ell * (ell + 1) / 2 * (h / 2)) * ((a :: t).getLast (by simp) - a)) := by
  have hM0 : 0 ≤ M := (abs_nonneg _).trans (hM 0 (by simp))
  induction t generalizing a with
  | nil => simp [poleSum, muMid, muBins]
  | cons b t ih =>
    have hab : a < b := (List.pairwise_cons.1 hs).1 b (by simp)
    have hs' := (List.pairwise_cons.1 hs).2
    have ih := ih b hs' (fun e he => h1 e (by simp [List.mem_cons.1 he])) (fun d hd => hh d (by
      have : muBins (a :: b :: t) = (b - a) :: muBins (b :: t) := rfl
      rw [this]; exact List.mem_cons_of_mem _ hd))
    have hd : b - a ≤ h := hh (b - a) (by
      have : muBins (a :: b :: t) = (b - a) :: muBins (b :: t) := rfl
      rw [this]; simp)
    have hbin := bin_error ell ξ hξ (h1 a (by simp)) (h1 b (by simp)) hab hM
    have hav : averages ξ (a :: b :: t) = ((∫ x in a..b, ξ x) / (b - a)) :: averages ξ (b :: t) := rfl
    have hlast : (a :: b :: t).getLast (by simp) = (b :: t).getLast (by simp) := List.getLast_cons (by simp)
    rw [hav, poleSum_cons, hlast]
    set L := (b :: t).getLast (by simp) with hL
    have hi : ∀ u v : ℝ, IntervalIntegrable (fun x => ξ x * (legendre ell).eval x) volume u v := fun u v =>
      (hξ.mul (legendre ell).continuous).intervalIntegrable u v
    rw [← intervalIntegral.integral_add_adjacent_intervals (hi a b) (hi b L)]
    set J := ∫ x in a..b, ξ x * (legendre ell).eval x
    set K := ∫ x in b..L, ξ x * (legendre ell).eval x
    set A := (∫ x in a..b, ξ x) / (b - a)
    have hb2 : M * (ell * (ell + 1) / 2 * ((b - a) / 2)) * (b - a) ≤ M * (ell * (ell + 1) / 2 * (h / 2)) * (b - a) := by
      have : 0 ≤ b - a := by linarith
      gcongr
    have hbin := hbin.trans hb2
    have e : A * ((2 * ell + 1) * (legendre ell).eval ((b + a) / 2)) * (b - a) + poleSum ell (averages ξ (b :: t)) (b :: t) -
        (2 * ell + 1) * (J + K) =
        (2 * ell + 1) * (A * (legendre ell).eval ((b + a) / 2) * (b - a) - J) +
          (poleSum ell (averages ξ (b :: t)) (b :: t) - (2 * ell + 1) * K) := by ring
    rw [e]
    have hpos : (0 : ℝ) ≤ 2 * ell + 1 := by positivity
    calc _ ≤ |(2 * (ell : ℝ) + 1) * (A * (legendre ell).eval ((b + a) / 2) * (b - a) - J)| +
            |poleSum ell (averages ξ (b :: t)) (b :: t) - (2 * ell + 1) * K| := abs_add_le _ _
      _ ≤ (2 * ell + 1) * (M * (ell * (ell + 1) / 2 * (h / 2)) * (b - a)) +
            (2 * ell + 1) * (M * (ell * (ell + 1) / 2 * (h / 2)) * (L - b)) := by
          rw [abs_mul, abs_of_nonneg hpos]
          gcongr
      _ = _ := by ring

/-- C102: from ideal wedges every multipole comes out up to an error proportional to the width of the bins.  `mu` are the edges
of the bins, increasing within `[-1, 1]`, and `ξ` is the correlation at one separation. -/
theorem pole_error_partial (ell : Nat) (ξ : ℝ → ℝ) (hξ : Continuous ξ) {M h : ℝ} (hM : ∀ x, |x| ≤ 1 → |ξ x| ≤ M) (a : ℝ)
    (t : List ℝ) (ht : t ≠ []) (hs : (a :: t).Pairwise (· < ·)) (h1 : ∀ e ∈ a :: t, |e| ≤ 1) (hh : ∀ d ∈ muBins (a :: t), d ≤ h) :
    |pole ell (averages ξ (a :: t)) (a :: t) -
      (2 * ell + 1) / (t.getLast ht - a) * ∫ x in a..t.getLast ht, ξ x * (legendre ell).eval x| ≤
      (2 * ell + 1) * M * (ell * (ell + 1)) / 4 * h := by
  have key := poleSum_error ell ξ hξ hM a t hs h1 hh
  have hl : (a :: t).getLast (by simp) = t.getLast ht := List.getLast_cons ht
  rw [hl] at key
  have hpos : 0 < t.getLast ht - a := by
    have := (List.pairwise_cons.1 hs).1 _ (List.getLast_mem ht)
    linarith
  unfold pole
  rw [muBins_sum, hl]
  set w := t.getLast ht - a
  rw [show poleSum ell (averages ξ (a :: t)) (a :: t) / w - (2 * ell + 1) / w * ∫ x in a..t.getLast ht, ξ x * (legendre ell).eval x =
    (poleSum ell (averages ξ (a :: t)) (a :: t) - (2 * ell + 1) * ∫ x in a..t.getLast ht, ξ x * (legendre ell).eval x) / w by ring,
    abs_div, abs_of_pos hpos, div_le_iff₀ hpos]
  refine key.trans (le_of_eq ?_)
  ring

/-- The monopole is exact: it is the average of the correlation over all bins. -/
theorem monopole_exact (ξ : ℝ → ℝ) (hξ : Continuous ξ) (a : ℝ) (t : List ℝ) (ht : t ≠ []) (hs : (a :: t).Pairwise (· < ·))
    (h1 : ∀ e ∈ a :: t, |e| ≤ 1) :
    pole 0 (averages ξ (a :: t)) (a :: t) = (∫ x in a..t.getLast ht, ξ x) / (t.getLast ht - a) := by
  obtain ⟨M, hM⟩ : ∃ M, ∀ x, |x| ≤ 1 → |ξ x| ≤ M := by
    obtain ⟨M, hM⟩ := (isCompact_Icc (a := (-1 : ℝ)) (b := 1)).exists_bound_of_continuousOn hξ.continuousOn
    exact ⟨M, fun x hx => hM x (abs_le.1 hx)⟩
  obtain ⟨h, hh⟩ : ∃ h, ∀ d ∈ muBins (a :: t), d ≤ h := by
    have : ∀ l : List ℝ, ∃ h, ∀ d ∈ l, d ≤ h := by
      intro l
      induction l with
      | nil => exact ⟨0, by simp⟩
      | cons x l ih =>
        obtain ⟨h, hh⟩ := ih
        refine ⟨max x h, ?_⟩
        intro d hd
        rcases List.mem_cons.1 hd with rfl | hd
        · exact le_max_left _ _
        · exact (hh d hd).trans (le_max_right _ _)
    exact this _
  have := pole_error_partial 0 ξ hξ hM a t ht hs h1 hh
  simp only [Nat.cast_zero, mul_zero, zero_mul, zero_add, zero_div] at this
  have := abs_nonpos_iff.1 this
  have e := sub_eq_zero.1 this
  rw [e]
  simp only [legendre, eval_one, mul_one]
  ring

/-- `numpy.linspace(0, 1, N + 1)`. -/
def uniform (N : Nat) : List ℝ := (List.range (N + 1)).map fun (i : Nat) => (i : ℝ) / N

theorem uniform_cons (N : Nat) : uniform N = 0 :: (List.range N).map fun (i : Nat) => ((i : ℝ) + 1) / N := by
  unfold uniform
  rw [List.range_succ_eq_map, List.map_cons, List.map_map]
  simp [Function.comp_def]

theorem muBins_uniform (N : Nat) : ∀ d ∈ muBins (uniform N), d ≤ 1 / (N : ℝ) := by
  intro d hd
  unfold muBins uniform at hd
  rw [List.mem_iff_getElem] at hd
  obtain ⟨i, hi, rfl⟩ := hd
  simp only [List.getElem_zipWith, List.getElem_tail, List.getElem_map, List.getElem_range]
  push_cast
  apply le_of_eq
  ring

theorem uniform_sorted (N : Nat) (hN : 0 < N) : (uniform N).Pairwise (· < ·) := by
  have hN' : (0 : ℝ) < N := by exact_mod_cast hN
  unfold uniform
  rw [List.pairwise_map]
  refine List.pairwise_lt_range.imp ?_
  intro a b hab
  have : (a : ℝ) < b := by exact_mod_cast hab
  gcongr

theorem uniform_le (N : Nat) (hN : 0 < N) : ∀ e ∈ uniform N, |e| ≤ 1 := by
  have hN' : (0 : ℝ) < N := by exact_mod_cast hN
  intro e he
  obtain ⟨i, hi, rfl⟩ := List.mem_map.1 he
  have : (i : ℝ) ≤ N := by
    have := List.mem_range.1 hi
    exact_mod_cast Nat.lt_succ_iff.1 this
  rw [abs_of_nonneg (by positivity), div_le_one hN']
  exact this

/-- C102: with more and more bins in `mu` from 0 to 1, `corr_ell` approaches the coefficient of the multipole, for a correlation
made of any even multipoles. -/
theorem pole_limit (s : Finset Nat) (hs : ∀ k ∈ s, k % 2 = 0) (c : Nat → ℝ) (ell : Nat) (he : ell % 2 = 0) :
    Filter.Tendsto (fun N : Nat => pole ell (averages (fun x => ∑ k ∈ s, c k * (legendre k).eval x) (uniform N)) (uniform N))
      Filter.atTop (nhds (if ell ∈ s then c ell else 0)) := by
  set ξ : ℝ → ℝ := fun x => ∑ k ∈ s, c k * (legendre k).eval x with hξd
  have hξ : Continuous ξ := continuous_finsetSum _ fun k _ => continuous_const.mul (legendre k).continuous
  obtain ⟨M, hM⟩ : ∃ M, ∀ x, |x| ≤ 1 → |ξ x| ≤ M := by
    obtain ⟨M, hM⟩ := (isCompact_Icc (a := (-1 : ℝ)) (b := 1)).exists_bound_of_continuousOn hξ.continuousOn
    exact ⟨M, fun x hx => hM x (abs_le.1 hx)⟩
  have hint : (2 * (ell : ℝ) + 1) * ∫ x in (0 : ℝ)..1, ξ x * (legendre ell).eval x = if ell ∈ s then c ell else 0 := by
    have e1 : ∀ x, ξ x * (legendre ell).eval x = ∑ k ∈ s, c k * ((legendre k).eval x * (legendre ell).eval x) := by
      intro x
      rw [hξd]
      simp only [Finset.sum_mul, mul_assoc]
    simp only [e1]
    have c1 : ∀ k, Continuous fun x => c k * ((legendre k).eval x * (legendre ell).eval x) := fun k =>
      continuous_const.mul ((legendre k).continuous.mul (legendre ell).continuous)
    rw [intervalIntegral.integral_finset_sum (fun k _ => (c1 k).intervalIntegrable 0 1)]
    have e2 : ∀ k ∈ s, (∫ x in (0 : ℝ)..1, c k * ((legendre k).eval x * (legendre ell).eval x)) =
        if ell = k then c ell / (2 * (ell : ℝ) + 1) else 0 := by
      intro k hk
      rw [intervalIntegral.integral_const_mul, legendre_half k ell (by have := hs k hk; omega)]
      by_cases hkl : ell = k
      · subst hkl; simp; ring
      · rw [if_neg (fun h => hkl h.symm), if_neg hkl, mul_zero]
    rw [Finset.sum_congr rfl e2, Finset.sum_ite_eq]
    split
    · field_simp
    · simp
  rw [← hint, tendsto_iff_norm_sub_tendsto_zero]
  have hz : Filter.Tendsto (fun N : Nat => (2 * (ell : ℝ) + 1) * M * (ell * (ell + 1)) / 4 * (1 / (N : ℝ))) Filter.atTop (nhds 0) := by
    have := tendsto_one_div_atTop_nhds_zero_nat (𝕜 := ℝ)
    simpa using this.const_mul ((2 * (ell : ℝ) + 1) * M * (ell * (ell + 1)) / 4)
  refine squeeze_zero' (Filter.Eventually.of_forall fun _ => norm_nonneg _) ?_ hz
  filter_upwards [Filter.eventually_gt_atTop 0] with N hN
  have hN' : (0 : ℝ) < N := by exact_mod_cast hN
  have hu := uniform_cons N
  set t := (List.range N).map fun (i : Nat) => ((i : ℝ) + 1) / N with htd
  have ht : t ≠ [] := by
    intro h
    have := congrArg List.length h
    simp [htd] at this
    omega
  have hlast : t.getLast ht = 1 := by
    rw [List.getLast_eq_getElem]
    simp only [htd, List.length_map, List.length_range, List.getElem_map, List.getElem_range]
    rw [Nat.cast_sub hN]
    field_simp
    push_cast; ring
  have := pole_error_partial ell ξ hξ hM 0 t ht (by
      rw [← hu]; exact uniform_sorted N hN) (by
      rw [← hu]; exact uniform_le N hN) (by rw [← hu]; exact muBins_uniform N)
  rw [← hu, hlast, sub_zero, div_one] at this
  rw [Real.norm_eq_abs]
  exact this

theorem muMid_uniform (N : Nat) : muMid (uniform N) = (List.range N).map fun (i : Nat) => (2 * (i : ℝ) + 1) / (2 * N) := by
  apply List.ext_getElem
  · simp [muMid, uniform]
  · intro i h1 h2
    simp only [muMid, uniform, List.getElem_zipWith, List.getElem_tail, List.getElem_map, List.getElem_range]
    push_cast
    ring

theorem muBins_uniform_eq (N : Nat) : muBins (uniform N) = (List.range N).map fun (_ : Nat) => 1 / (N : ℝ) := by
  apply List.ext_getElem
  · simp [muBins, uniform]
  · intro i h1 h2
    simp only [muBins, uniform, List.getElem_zipWith, List.getElem_tail, List.getElem_map, List.getElem_range]
    push_cast
    ring

/-- The bins are not integrated over: without any anisotropy there is a quadrupole, for every number of bins. -/
theorem isotropic_quadrupole (N : Nat) (hN : 0 < N) (c : ℝ) :
    averages (fun _ => c) (uniform N) = List.replicate N c ∧
    pole 2 (averages (fun _ => c) (uniform N)) (uniform N) = -(5 * c) / (8 * (N : ℝ) ^ 2) ∧
    (c ≠ 0 → pole 2 (averages (fun _ => c) (uniform N)) (uniform N) ≠ 0) := by
  have hN' : (N : ℝ) ≠ 0 := by exact_mod_cast hN.ne'
  have ha : averages (fun _ => c) (uniform N) = List.replicate N c := by
    apply List.ext_getElem
    · simp [averages, uniform]
    · intro i h1 h2
      simp only [averages, uniform, List.getElem_zipWith, List.getElem_tail, List.getElem_map, List.getElem_range,
        intervalIntegral.integral_const, smul_eq_mul, List.getElem_replicate]
      push_cast
      rw [show ((i : ℝ) + 1) / N - i / N = 1 / N by ring]
      field_simp
  have hp : pole 2 (averages (fun _ => c) (uniform N)) (uniform N) = -(5 * c) / (8 * (N : ℝ) ^ 2) := by
    have hsum : ∀ n : Nat, ((List.range n).map fun (i : Nat) =>
        c * ((2 * ((2 : Nat) : ℝ) + 1) * (legendre 2).eval ((2 * (i : ℝ) + 1) / (2 * N))) * (1 / (N : ℝ))).sum =
        5 * c / 2 * (n * (4 * (n : ℝ) ^ 2 - 1) / (4 * (N : ℝ) ^ 2) - n) / N := by
      intro n
      induction n with
      | zero => simp
      | succ n ih =>
        rw [List.range_succ, List.map_append, List.sum_append, ih]
        simp only [List.map_cons, List.map_nil, List.sum_cons, List.sum_nil, legendre_two]
        push_cast
        field_simp
        ring
    have hb : (muBins (uniform N)).sum = 1 := by
      rw [muBins_uniform_eq]
      simp [hN']
    unfold pole poleSum
    rw [hb, ha, muMid_uniform, muBins_uniform_eq]
    have hr : List.replicate N c = (List.range N).map fun _ => c := by simp
    rw [hr, List.map_map, List.zipWith_map, List.zipWith_self, List.zipWith_map, List.zipWith_self]
    have := hsum N
    simp only [Function.comp_def]
    rw [this]
    field_simp
    ring
  refine ⟨ha, hp, fun hc => ?_⟩
  rw [hp]
  have : (0 : ℝ) < N := by exact_mod_cast hN
  exact div_ne_zero (by simpa using hc) (by positivity)

/-- C102: the rows of the result.  A call succeeds unless a multipole is asked for twice; there is a row for each separation, with
all multipoles, each with the error of `pole_error_partial`, and with the plain mean of the separations of the wedges. -/
theorem toPoles_spec_partial (w : Wedges) (poles : List Nat) (a : ℝ) (t : List ℝ) (hmu : w.mu = a :: t) (ht : t ≠ [])
    (hs : w.mu.Pairwise (· < ·)) (h1 : ∀ e ∈ w.mu, |e| ≤ 1) {h : ℝ} (hh : ∀ d ∈ muBins w.mu, d ≤ h) :
    (¬ poles.Nodup → toPoles w poles = .error .valueError) ∧
    (poles.Nodup → ∃ rows, toPoles w poles = .ok rows ∧ rows.length = min w.corr.length w.x.length ∧
      ∀ (i : Nat) (row : Row), rows[i]? = some row →
        row.corr.map (·.1) = poles ∧
        (∀ xs : List ℝ, xs ≠ [] → w.x[i]? = some (xs.map some) → row.x = some (xs.sum / xs.length)) ∧
        (∀ xs : List (Option ℝ), none ∈ xs → w.x[i]? = some xs → row.x = none) ∧
        ∀ (ξ : ℝ → ℝ) (M : ℝ), Continuous ξ → (∀ x, |x| ≤ 1 → |ξ x| ≤ M) → w.corr[i]? = some (averages ξ w.mu) →
          ∀ ell v, (ell, v) ∈ row.corr →
            |v - (2 * ell + 1) / (t.getLast ht - a) * ∫ x in a..t.getLast ht, ξ x * (legendre ell).eval x| ≤
              (2 * ell + 1) * M * (ell * (ell + 1)) / 4 * h) := by
  constructor
  · intro hn
    simp [toPoles, hn]
  · intro hn
    refine ⟨_, by rw [toPoles, if_pos hn], by simp, ?_⟩
    intro i row hi
    obtain ⟨hi', hrow⟩ := List.getElem?_eq_some_iff.1 hi
    simp only [List.length_zipWith] at hi'
    rw [List.getElem_zipWith] at hrow
    subst hrow
    refine ⟨by simp [Function.comp_def], ?_, ?_, ?_⟩
    · intro xs hxs hx
      obtain ⟨_, hx⟩ := List.getElem?_eq_some_iff.1 hx
      simp only [hx, meanX]
      have hl : (xs.map some).length ≠ 0 := by simpa using hxs
      rw [if_neg hl]
      have hf : ∀ (l : List ℝ) (s : ℝ),
          (l.map some).foldl (fun a b => a.bind fun s => b.map fun v => s + v) (some s) = some (s + l.sum) := by
        intro l
        induction l with
        | nil => intro s; simp
        | cons x l ih => intro s; simp [ih, add_assoc]
      rw [hf]; simp
    · intro xs hxs hx
      obtain ⟨_, hx⟩ := List.getElem?_eq_some_iff.1 hx
      simp only [hx, meanX]
      have h0 : ∀ l : List (Option ℝ), l.foldl (fun a b => a.bind fun s => b.map fun v => s + v) none = none := by
        intro l
        induction l with
        | nil => rfl
        | cons x l ih => simpa using ih
      have hf : ∀ (l : List (Option ℝ)) (s : Option ℝ), none ∈ l →
          l.foldl (fun a b => a.bind fun s => b.map fun v => s + v) s = none := by
        intro l
        induction l with
        | nil => simp
        | cons x l ih =>
          intro s hm
          rcases List.mem_cons.1 hm with rfl | hm
          · rw [List.foldl_cons]
            cases s <;> simp [h0]
          · exact ih _ hm
      rw [hf xs _ hxs]; simp
    · intro ξ M hξ hM hc ell v hv
      obtain ⟨_, hc⟩ := List.getElem?_eq_some_iff.1 hc
      simp only [hc, List.mem_map, Prod.mk.injEq] at hv
      obtain ⟨e, _, rfl, rfl⟩ := hv
      rw [hmu] at hs h1 hh ⊢
      exact pole_error_partial e ξ hξ hM a t ht hs h1 hh

/-- The separation of a row is not that of its pairs: the wedges count alike, however many pairs they hold. -/
theorem x_unweighted : ∃ (x npairs : List ℝ), (∀ n ∈ npairs, 0 < n) ∧
    ∃ rows, toPoles ⟨[0, 1 / 2, 1], [[0, 0]], [x.map some]⟩ [0] = .ok rows ∧
      rows.map (·.x) ≠ [some ((List.zipWith (· * ·) npairs x).sum / npairs.sum)] := by
  refine ⟨[1, 2], [1, 3], by simp, _, by rw [toPoles, if_pos (by simp)], ?_⟩
  norm_num [meanX]

/-- The same sum as in the model with rational numbers and undefined bins (`Estim.pole`). -/
theorem pole_estim (ell : Nat) (leg : ℚ → ℚ) (hleg : ∀ q, ((leg q : ℚ) : ℝ) = (legendre ell).eval (q : ℝ)) (corr mu : List ℚ)
    (hw : (Estim.diff mu).sum ≠ 0) :
    (Estim.pole ell leg (corr.map some) mu).map (fun q : ℚ => (q : ℝ)) =
      some (pole ell (corr.map fun q : ℚ => (q : ℝ)) (mu.map fun q : ℚ => (q : ℝ))) := by
  have hf : ∀ (l : List ℚ) (s : ℚ),
      (l.map some).foldl (fun a b => a.bind fun x => b.map fun y => x + y) (some s) = some (s + l.sum) := by
    intro l
    induction l with
    | nil => intro s; simp
    | cons x l ih => intro s; simp [ih, add_assoc]
  have hmap : ((corr.map some).zip ((List.zipWith (fun a b => (b + a) / 2) mu mu.tail).zip (Estim.diff mu))).map
      (fun p => p.1.map fun c => c * ((2 * (ell : ℚ) + 1) * leg p.2.1) * p.2.2) =
      ((corr.zip ((List.zipWith (fun a b => (b + a) / 2) mu mu.tail).zip (Estim.diff mu))).map
        fun p => p.1 * ((2 * (ell : ℚ) + 1) * leg p.2.1) * p.2.2).map some := by
    rw [List.zip_map_left, List.map_map, List.map_map]
    rfl
  unfold Estim.pole
  dsimp only
  rw [hmap, hf, zero_add, Option.bind_some, Estim.fdiv, if_neg hw, Option.map_some]
  congr 1
  have hd : ∀ mu : List ℚ, (((Estim.diff mu).sum : ℚ) : ℝ) = (muBins (mu.map fun q : ℚ => (q : ℝ))).sum := by
    intro mu
    induction mu with
    | nil => simp [Estim.diff, muBins]
    | cons a mu ih =>
      cases mu with
      | nil => simp [Estim.diff, muBins]
      | cons b mu =>
        have e1 : Estim.diff (a :: b :: mu) = (b - a) :: Estim.diff (b :: mu) := rfl
        have e2 : muBins ((a :: b :: mu).map fun q : ℚ => (q : ℝ)) = ((b : ℝ) - a) :: muBins ((b :: mu).map fun q : ℚ => (q : ℝ)) := rfl
        rw [e1, e2, List.sum_cons, List.sum_cons, ← ih]
        push_cast
        rfl
  have hn : ∀ mu corr : List ℚ, ((((corr.zip ((List.zipWith (fun a b => (b + a) / 2) mu mu.tail).zip (Estim.diff mu))).map
        fun p => p.1 * ((2 * (ell : ℚ) + 1) * leg p.2.1) * p.2.2).sum : ℚ) : ℝ) =
      poleSum ell (corr.map fun q : ℚ => (q : ℝ)) (mu.map fun q : ℚ => (q : ℝ)) := by
    intro mu
    induction mu with
    | nil => intro corr; simp [Estim.diff, poleSum, muMid, muBins]
    | cons a mu ih =>
      intro corr
      cases mu with
      | nil => simp [Estim.diff, poleSum, muMid, muBins]
      | cons b mu =>
        cases corr with
        | nil => simp [poleSum]
        | cons c corr =>
          have e1 : Estim.diff (a :: b :: mu) = (b - a) :: Estim.diff (b :: mu) := rfl
          simp only [List.map_cons, List.tail_cons]
          rw [poleSum_cons]
          have := ih corr
          simp only [List.map_cons, List.tail_cons] at this
          rw [← this, e1]
          simp only [List.zipWith_cons_cons, List.zip_cons_cons, List.map_cons, List.sum_cons]
          push_cast
          rw [hleg]
          push_cast
          ring
  unfold pole
  rw [Rat.cast_div, hd, hn]

/-- A case: three wedges, where the quadrupole of a constant is not zero. -/
theorem poles_case : pole 0 [2, 2, 2] [0, 1 / 4, 1 / 2, 1] = 2 ∧ pole 2 [2, 2, 2] [0, 1 / 4, 1 / 2, 1] = -25 / 128 := by
  norm_num [pole, poleSum, muMid, muBins, legendre_two, legendre]

/-- The hypotheses of `toPoles_spec_partial` are met. -/
theorem spec_case : ([0, 1 / 4, 1 / 2, 1] : List ℝ).Pairwise (· < ·) ∧ (∀ e ∈ ([0, 1 / 4, 1 / 2, 1] : List ℝ), |e| ≤ 1) ∧
    (∀ d ∈ muBins [0, 1 / 4, 1 / 2, 1], d ≤ 1 / 2) ∧ Continuous (fun x : ℝ => 1 + x ^ 2) ∧
    ∀ x : ℝ, |x| ≤ 1 → |1 + x ^ 2| ≤ 2 := by
  refine ⟨by norm_num, ?_, ?_, by fun_prop, ?_⟩
  · norm_num [abs_le]
  · norm_num [muBins]
  · intro x hx
    obtain ⟨h1, h2⟩ := abs_le.1 hx
    rw [abs_of_nonneg (by positivity)]
    nlinarith

end NBK.Multipoles
