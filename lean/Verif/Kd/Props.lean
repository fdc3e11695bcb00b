import Verif.Kd.Model
import Verif.Pairs.BoxProps

/-! # The density from the eighth neighbour -/

set_option linter.unusedSimpArgs false

namespace NBK.Kd
open NBK.Pairs

/-- A distance that may be infinite is at most `x`. -/
def Le (o : Option ℚ) (x : ℚ) : Prop := ∃ d, o = some d ∧ d ≤ x

theorem Le_ext (a b : Option ℚ) (h : ∀ x, Le a x ↔ Le b x) : a = b := by
  cases a with
  | none =>
    cases b with
    | none => rfl
    | some y =>
      obtain ⟨d, hd, _⟩ := (h y).2 ⟨y, rfl, le_refl _⟩
      cases hd
  | some x =>
    obtain ⟨d, hd, h1⟩ := (h x).1 ⟨x, rfl, le_refl _⟩
    obtain ⟨c, hc, h2⟩ := (h d).2 ⟨d, hd, le_refl _⟩
    cases hc
    rw [hd, le_antisymm h1 h2]

theorem kth_sorted (x : ℚ) : ∀ (l : List ℚ) (k : Nat), l.Pairwise (· ≤ ·) → (Le l[k]? x ↔ k + 1 ≤ l.countP fun y => y ≤ x)
  | [], k, _ => by simp [Le]
  | a :: l, k, h => by
    have ha := (List.pairwise_cons.1 h).1
    by_cases hx : a ≤ x
    · rw [List.countP_cons_of_pos (by simpa using hx)]
      cases k with
      | zero => simpa [Le] using hx
      | succ k =>
        rw [List.getElem?_cons_succ, kth_sorted x l k (List.pairwise_cons.1 h).2]
        omega
    · have hc : (a :: l).countP (fun y => decide (y ≤ x)) = 0 := by
        rw [List.countP_eq_zero]
        intro b hb
        rcases List.mem_cons.1 hb with hb | hb
        · simpa [hb] using hx
        · simp only [decide_eq_true_eq]
          exact fun h' => hx (le_trans (ha b hb) h')
      rw [hc]
      constructor
      · rintro ⟨d, hd, hdx⟩
        have hm := List.mem_of_getElem? hd
        rcases List.mem_cons.1 hm with e | e
        · exact absurd (e ▸ hdx) hx
        · exact absurd (le_trans (ha d e) hdx) hx
      · intro h'; omega

/-- The `k`-th smallest is at most `x` exactly when at least `k` elements are. -/
theorem kth_spec (k : Nat) (hk : 0 < k) (l : List ℚ) (x : ℚ) : Le (kth k l) x ↔ k ≤ l.countP fun y => y ≤ x := by
  unfold kth
  rw [kth_sorted x _ _ (List.pairwise_insertionSort _ l), (List.perm_insertionSort (· ≤ ·) l).countP_eq]
  omega

theorem fmin_spec (a b : Option ℚ) (x : ℚ) : Le (fmin a b) x ↔ Le a x ∨ Le b x := by
  cases a <;> cases b <;> simp [fmin, Le, min_le_iff]

theorem fold_fmin (l : List (Option ℚ)) (x : ℚ) : ∀ a, Le (l.foldl fmin a) x ↔ Le a x ∨ ∃ b ∈ l, Le b x := by
  induction l with
  | nil => intro a; simp
  | cons b l ih => intro a; rw [List.foldl_cons, ih, fmin_spec]; simp [or_assoc]

/-- The gathered distance is at most `x` exactly when some rank that got the particle has eight particles within it. -/
theorem gathered_spec (L : ℚ) (lay : Layout Pos Pos) (D : List (List Pos)) (p : Pos) (x : ℚ) :
    Le (gathered L lay D p) x ↔ ∃ d ∈ lay.ghosts p, 8 ≤ (exchange2 lay D d).countP fun q => sep2 unit (scaled L p) (scaled L q) ≤ x := by
  unfold gathered
  rw [fold_fmin]
  have h0 : ¬ Le none x := by rintro ⟨d, hd, _⟩; cases hd
  simp only [h0, false_or, List.mem_map, exists_exists_and_eq_and, localD, kth_spec 8 (by decide), List.countP_map]
  rfl

/-- Particles of the cubic box. -/
def InBox (L : ℚ) (p : Pos) : Prop := (0 ≤ p.x ∧ p.x < L) ∧ (0 ≤ p.y ∧ p.y < L) ∧ (0 ≤ p.z ∧ p.z < L)

theorem wrap_unit (L x : ℚ) (h0 : 0 ≤ x) (h1 : x < L) : wrap 1 (x / L) = x / L := by
  have hL : 0 < L := lt_of_le_of_lt h0 h1
  have h2 : ⌊x / L / 1⌋ = 0 := by
    rw [Int.floor_eq_iff]
    simp only [div_one, Int.cast_zero, zero_add]
    exact ⟨div_nonneg h0 hL.le, (div_lt_one hL).2 h1⟩
  show x / L - 1 * ((⌊x / L / 1⌋ : ℤ) : ℚ) = _
  rw [h2]
  simp

theorem axis_scale (L a b : ℚ) (hL : 0 < L) : axisSq 1 (a / L) (b / L) = axisSq L a b / L ^ 2 := by
  unfold axisSq
  have hL2 : (0 : ℚ) < L ^ 2 := by positivity
  have e1 : (a / L - b / L) ^ 2 = (a - b) ^ 2 / L ^ 2 := by field_simp
  have e2 : (a / L - (b / L + 1)) ^ 2 = (a - (b + L)) ^ 2 / L ^ 2 := by field_simp
  have e3 : (a / L - (b / L - 1)) ^ 2 = (a - (b - L)) ^ 2 / L ^ 2 := by field_simp
  rw [e1, e2, e3, min_div_div_right hL2.le, min_div_div_right hL2.le]

/-- Distances in the unit box are distances over the side. -/
theorem sep_scale (L : ℚ) (p q : Pos) (hp : InBox L p) (hq : InBox L q) : sep2 unit (scaled L p) (scaled L q) = sep2 ⟨L, L, L⟩ p q / L ^ 2 := by
  have hL : 0 < L := lt_of_le_of_lt hp.1.1 hp.1.2
  unfold sep2 scaled unit
  simp only [wrap_unit L _ hp.1.1 hp.1.2, wrap_unit L _ hp.2.1.1 hp.2.1.2, wrap_unit L _ hp.2.2.1 hp.2.2.2,
    wrap_unit L _ hq.1.1 hq.1.2, wrap_unit L _ hq.2.1.1 hq.2.1.2, wrap_unit L _ hq.2.2.1 hq.2.2.2, axis_scale _ _ _ hL]
  ring

/-- The squared distance to the eighth nearest of all particles, itself included. -/
def trueD (L : ℚ) (D : List (List Pos)) (p : Pos) : Option ℚ := kth 8 (D.flatten.map fun q => sep2 ⟨L, L, L⟩ p q)

theorem trueD_spec (L : ℚ) (D : List (List Pos)) (p : Pos) (x : ℚ) :
    Le (trueD L D p) x ↔ 8 ≤ D.flatten.countP fun q => sep2 ⟨L, L, L⟩ p q ≤ x := by
  unfold trueD
  rw [kth_spec 8 (by decide), List.countP_map]
  rfl

theorem exchange2_eq (lay : Layout Pos Pos) (D : List (List Pos)) (d : Nat) : exchange2 lay D d = D.flatten.filter fun q => (lay.ghosts q).contains d := by
  unfold exchange2
  induction D with
  | nil => rfl
  | cons l D ih => rw [List.flatMap_cons, ih, List.flatten_cons, List.filter_append]

theorem Le_scale (o : Option ℚ) (c x : ℚ) (hc : 0 < c) : Le (o.map fun d => d / c) x ↔ Le o (x * c) := by
  cases o with
  | none => simp [Le]
  | some d => simp [Le, div_le_iff₀ hc]

/-- The number of received particles within a distance, on any rank. -/
theorem count_local (L : ℚ) (lay : Layout Pos Pos) (D : List (List Pos)) (p : Pos) (hp : InBox L p) (hD : ∀ l ∈ D, ∀ q ∈ l, InBox L q) (d : Nat) (x : ℚ) :
    (exchange2 lay D d).countP (fun q => sep2 unit (scaled L p) (scaled L q) ≤ x) =
      D.flatten.countP fun q => sep2 ⟨L, L, L⟩ p q ≤ x * L ^ 2 && (lay.ghosts q).contains d := by
  have hL : 0 < L := lt_of_le_of_lt hp.1.1 hp.1.2
  have hL2 : (0 : ℚ) < L ^ 2 := by positivity
  rw [exchange2_eq, List.countP_filter]
  apply List.countP_congr
  intro q hq
  obtain ⟨l, hl, hq⟩ := List.mem_flatten.1 hq
  rw [sep_scale L p q hp (hD l hl q hq)]
  simp only [div_le_iff₀ hL2]

/-- The distance found is never smaller than the true one: the density is never too large. -/
theorem never_above (L : ℚ) (lay : Layout Pos Pos) (D : List (List Pos)) (p : Pos) (hp : InBox L p) (hD : ∀ l ∈ D, ∀ q ∈ l, InBox L q) (d : ℚ)
    (h : gathered L lay D p = some d) : ∃ t, trueD L D p = some t ∧ t ≤ d * L ^ 2 := by
  have h1 : Le (gathered L lay D p) d := ⟨d, h, le_refl _⟩
  obtain ⟨r, _, hr⟩ := (gathered_spec L lay D p d).1 h1
  rw [count_local L lay D p hp hD r d] at hr
  obtain ⟨t, ht, htd⟩ := (trueD_spec L D p (d * L ^ 2)).2 (le_trans hr (List.countP_mono_left fun q _ hq => (Bool.and_eq_true _ _ ▸ hq).1))
  exact ⟨t, ht, htd⟩

theorem sep_self (box p : Pos) : sep2 box p p = 0 := by
  have h : ∀ L a : ℚ, axisSq L a a = 0 := by
    intro L a
    unfold axisSq
    rw [sub_self]
    simp only [ne_eq, OfNat.ofNat_ne_zero, not_false_eq_true, zero_pow]
    exact min_eq_left (le_min (sq_nonneg _) (sq_nonneg _))
  unfold sep2
  simp [h]

/-- When the true eighth distance is not larger than the margin, the distance found is the true one, for any number of domains and any distribution of the
particles over the ranks. -/
theorem exact_partial (L : ℚ) (np : Nat × Nat × Nat) (hx : 0 < np.1) (hy : 0 < np.2.1) (hz : 0 < np.2.2) (sm : ℚ) (hsm : 0 ≤ sm) (D : List (List Pos)) (p : Pos)
    (hp : InBox L p) (hD : ∀ l ∈ D, ∀ q ∈ l, InBox L q) (t : ℚ) (ht : trueD L D p = some t) (hts : t ≤ sm ^ 2) :
    gathered L (gridLayout ⟨L, L, L⟩ np sm) D p = some (t / L ^ 2) := by
  have hL : 0 < L := lt_of_le_of_lt hp.1.1 hp.1.2
  have hL2 : (0 : ℚ) < L ^ 2 := by positivity
  have hcomp := fun b => gridLayout_complete ⟨L, L, L⟩ np sm hsm hx hy hz p b hp.1 hp.2.1 hp.2.2
  have hmem := (hcomp p).2 (by rw [sep_self]; positivity)
  have hle : Le (gathered L (gridLayout ⟨L, L, L⟩ np sm) D p) (t / L ^ 2) := by
    rw [gathered_spec]
    refine ⟨_, hmem, ?_⟩
    rw [count_local L _ D p hp hD, div_mul_cancel₀ _ hL2.ne']
    have h8 := (trueD_spec L D p t).1 ⟨t, ht, le_refl _⟩
    refine le_trans h8 (List.countP_mono_left ?_)
    intro q _ hq
    have hq' : sep2 ⟨L, L, L⟩ p q ≤ t := by simpa using hq
    rw [Bool.and_eq_true]
    exact ⟨hq, by simpa using (hcomp q).2 (le_trans hq' hts)⟩
  obtain ⟨d, hd, hdt⟩ := hle
  obtain ⟨t', ht', htd⟩ := never_above L _ D p hp hD d hd
  rw [ht] at ht'
  cases ht'
  rw [hd, le_antisymm hdt ((div_le_iff₀ hL2).2 htd)]

/-- The density itself is then `1 / d³` in the units of the positions. -/
theorem density_partial (L : ℚ) (np : Nat × Nat × Nat) (hx : 0 < np.1) (hy : 0 < np.2.1) (hz : 0 < np.2.2) (sm : ℚ) (hsm : 0 ≤ sm) (D : List (List Pos)) (p : Pos)
    (hp : InBox L p) (hD : ∀ l ∈ D, ∀ q ∈ l, InBox L q) (t : ℚ) (ht : trueD L D p = some t) (hts : t ≤ sm ^ 2) (h0 : t ≠ 0) :
    density2 L (gathered L (gridLayout ⟨L, L, L⟩ np sm) D p) = some (1 / t ^ 3) := by
  have hL : 0 < L := lt_of_le_of_lt hp.1.1 hp.1.2
  rw [exact_partial L np hx hy hz sm hsm D p hp hD t ht hts]
  have h1 : ¬ t / L ^ 2 = 0 := div_ne_zero h0 (by positivity)
  simp only [density2, if_neg h1, Option.some.injEq]
  field_simp

/-- With one domain the result is the true one, whatever the margin. -/
theorem one_domain (L : ℚ) (sm : ℚ) (hsm : 0 ≤ sm) (D : List (List Pos)) (p : Pos) (hp : InBox L p) (hD : ∀ l ∈ D, ∀ q ∈ l, InBox L q) :
    gathered L (gridLayout ⟨L, L, L⟩ (1, 1, 1) sm) D p = (trueD L D p).map fun t => t / L ^ 2 := by
  have hL : 0 < L := lt_of_le_of_lt hp.1.1 hp.1.2
  have hL2 : (0 : ℚ) < L ^ 2 := by positivity
  have hnear : ∀ y, 0 ≤ y → y < L → nearCell 1 L sm 0 y = true := by
    intro y h0 h1
    unfold nearCell
    rw [List.any_eq_true]
    refine ⟨y, by simp, ?_⟩
    simp only [Bool.and_eq_true, decide_eq_true_eq]
    constructor
    · push_cast; linarith
    · push_cast; linarith
  have hg : ∀ q, InBox L q → (gridLayout ⟨L, L, L⟩ (1, 1, 1) sm).ghosts q = [0] := by
    intro q hq
    have h := hnear
    simp only [gridLayout, Nat.one_mul, List.range_one]
    rw [List.filter_cons_of_pos]
    · rfl
    · simp [hnear _ hq.1.1 hq.1.2, hnear _ hq.2.1.1 hq.2.1.2, hnear _ hq.2.2.1 hq.2.2.2]
  apply Le_ext
  intro x
  rw [gathered_spec, Le_scale _ _ _ hL2, trueD_spec, hg p hp]
  have hc : ∀ x, D.flatten.countP (fun q => sep2 ⟨L, L, L⟩ p q ≤ x * L ^ 2 && ((gridLayout ⟨L, L, L⟩ (1, 1, 1) sm).ghosts q).contains 0) =
      D.flatten.countP fun q => sep2 ⟨L, L, L⟩ p q ≤ x * L ^ 2 := by
    intro x
    apply List.countP_congr
    intro q hq
    obtain ⟨l, hl, hq⟩ := List.mem_flatten.1 hq
    rw [hg q (hD l hl q hq)]
    simp
  constructor
  · rintro ⟨d, hd, h⟩
    rw [List.mem_singleton] at hd
    rw [hd, count_local L _ D p hp hD, hc] at h
    exact h
  · intro h
    refine ⟨0, by simp, ?_⟩
    rw [count_local L _ D p hp hD, hc]
    exact h

/-- Fewer than eight particles: every density is zero. -/
theorem few (L : ℚ) (np : Nat × Nat × Nat) (sm : ℚ) (D : List (List Pos)) (h : D.flatten.length < 8) :
    run L np sm D = D.map fun l => l.map fun _ => some 0 := by
  unfold run
  congr 1
  funext l
  congr 1
  funext p
  have hn : gathered L (gridLayout ⟨L, L, L⟩ np sm) D p = none := by
    cases hg : gathered L (gridLayout ⟨L, L, L⟩ np sm) D p with
    | none => rfl
    | some d =>
      obtain ⟨r, _, hr⟩ := (gathered_spec L _ D p d).1 ⟨d, hg, le_refl _⟩
      have h1 := List.countP_le_length (p := fun q => decide (sep2 unit (scaled L p) (scaled L q) ≤ d)) (l := exchange2 (gridLayout ⟨L, L, L⟩ np sm) D r)
      rw [exchange2_eq] at h1 hr
      have h2 := List.length_filter_le (fun q => ((gridLayout ⟨L, L, L⟩ np sm).ghosts q).contains r) D.flatten
      omega
  rw [hn]
  rfl

/-- `attrs['meansep']` is the inverse of the mean separation, so its product with a margin is not a length. -/
theorem meansep_inverse (N : Nat) (hN : 0 < N) (L s t : ℚ) (hL : 0 < L) (hs : s ^ 3 = meansep3 N L) (ht : t ^ 3 = L * L * L / N) : s * t = 1 := by
  have h : (s * t) ^ 3 = 1 := by
    rw [mul_pow, hs, ht, meansep3]
    have : (N : ℚ) ≠ 0 := by positivity
    field_simp
  have h2 : (s * t - 1) * ((s * t) ^ 2 + s * t + 1) = 0 := by linarith [h, show (s * t - 1) * ((s * t) ^ 2 + s * t + 1) = (s * t) ^ 3 - 1 by ring]
  rcases mul_eq_zero.1 h2 with h3 | h3
  · linarith
  · nlinarith [sq_nonneg (s * t + 1 / 2)]

/-- Eight particles, the corners of a cube in a box of side `L`. -/
def corners (L : ℚ) : List Pos :=
  [⟨L / 4, L / 4, L / 4⟩, ⟨L / 4, L / 4, L * 3 / 4⟩, ⟨L / 4, L * 3 / 4, L / 4⟩, ⟨L / 4, L * 3 / 4, L * 3 / 4⟩,
   ⟨L * 3 / 4, L / 4, L / 4⟩, ⟨L * 3 / 4, L / 4, L * 3 / 4⟩, ⟨L * 3 / 4, L * 3 / 4, L / 4⟩, ⟨L * 3 / 4, L * 3 / 4, L * 3 / 4⟩]

/-- The result depends on the number of ranks and on the unit of length, with the default margin: the same eight particles in a box of side 1 and of side 10. The
margin is `meansep`, 2 in the first and 1/5 in the second case. -/
theorem depends_on_unit :
    (2 : ℚ) ^ 3 = meansep3 8 1 ∧ (1 / 5 : ℚ) ^ 3 = meansep3 8 10 ∧
    run 1 (2, 1, 1) 2 [corners 1, []] = [List.replicate 8 (some (64 / 27)), []] ∧
    run 10 (2, 1, 1) (1 / 5) [corners 10, []] = [List.replicate 8 (some 0), []] ∧
    run 10 (1, 1, 1) (1 / 5) [corners 10] = [List.replicate 8 (some (64 / 27 / 10 ^ 6))] := by
  refine ⟨by norm_num [meansep3], by norm_num [meansep3], ?_, ?_, ?_⟩ <;> decide +kernel

/-- A case of the exact result on two domains. -/
example : trueD 1 [corners 1, []] ⟨1 / 4, 1 / 4, 1 / 4⟩ = some (3 / 4) ∧ (3 / 4 : ℚ) ≤ 2 ^ 2 ∧
    gathered 1 (gridLayout ⟨1, 1, 1⟩ (2, 1, 1) 2) [corners 1, []] ⟨1 / 4, 1 / 4, 1 / 4⟩ = some (3 / 4) := by
  refine ⟨?_, ?_, ?_⟩ <;> decide +kernel

/-- Fewer than eight. -/
example : run 1 (1, 1, 1) 2 [(corners 1).take 7] = [List.replicate 7 (some 0)] := by decide +kernel

end NBK.Kd
