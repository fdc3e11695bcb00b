import Verif.Pkmu.Lemmas

/-! # C74: wedges from multipoles -/
set_option linter.unusedSimpArgs false

namespace NBK.Pkmu
open Polynomial

/-- Every even multipole up to the largest one is measured in every bin. -/
def Measured (p : Poles) (maxEll : Nat) : Prop :=
  ∀ e, e % 2 = 0 → e ≤ maxEll → ∃ v, p.power.lookup e = some v ∧ v.length = p.k.length

/-- The Legendre polynomials used are fixed by Bonnet's recursion, start with `1` and `x`. -/
theorem legendre_spec : toPoly (legendre 0) = 1 ∧ toPoly (legendre 1) = X ∧ ∀ n : Nat,
    C ((n : ℚ) + 2) * toPoly (legendre (n + 2)) =
      C (2 * (n : ℚ) + 3) * (X * toPoly (legendre (n + 1))) - C ((n : ℚ) + 1) * toPoly (legendre n) :=
  ⟨by simp [legendre, toPoly], by simp [legendre, toPoly], legendre_rec⟩

/-- The call succeeds exactly when all even multipoles up to `max_ell` are measured; odd ones and higher ones do not
matter. -/
theorem pkmu_ok_iff (p : Poles) (muEdges : List ℚ) (maxEll : Nat) :
    (∃ r, toPkmu p muEdges maxEll = .ok r) ↔ ∀ e, e % 2 = 0 → e ≤ maxEll → p.power.lookup e ≠ none := by
  constructor
  · rintro ⟨r, hr⟩ e h1 h2 hn
    unfold toPkmu at hr
    rw [if_pos] at hr
    · exact absurd hr (by simp)
    · exact List.any_eq_true.mpr ⟨e, (mem_ells maxEll e).mpr ⟨h1, h2⟩, by simp [hn]⟩
  · intro h
    exact ⟨_, toPkmu_eq p muEdges maxEll fun e he => by
      have := h e ((mem_ells maxEll e).mp he).1 ((mem_ells maxEll e).mp he).2
      cases hx : p.power.lookup e <;> simp_all⟩

/-- The result depends on the even multipoles up to `max_ell` only. -/
theorem pkmu_congr (p q : Poles) (muEdges : List ℚ) (maxEll : Nat) (hk : p.k = q.k)
    (h : ∀ e, e % 2 = 0 → e ≤ maxEll → p.power.lookup e = q.power.lookup e) :
    toPkmu p muEdges maxEll = toPkmu q muEdges maxEll := by
  have ha : ((ells maxEll).any fun ell => (p.power.lookup ell).isNone) =
      (ells maxEll).any fun ell => (q.power.lookup ell).isNone := by
    rw [Bool.eq_iff_iff, List.any_eq_true, List.any_eq_true]
    constructor
    · rintro ⟨e, he, hx⟩
      exact ⟨e, he, by rw [← h e ((mem_ells _ _).mp he).1 ((mem_ells _ _).mp he).2]; exact hx⟩
    · rintro ⟨e, he, hx⟩
      exact ⟨e, he, by rw [h e ((mem_ells _ _).mp he).1 ((mem_ells _ _).mp he).2]; exact hx⟩
  have hw : ∀ lo hi, wedge p maxEll lo hi = wedge q maxEll lo hi := by
    intro lo hi
    unfold wedge
    rw [hk]
    apply List.foldl_ext
    intro acc e he
    rw [h e ((mem_ells _ _).mp he).1 ((mem_ells _ _).mp he).2]
  unfold toPkmu
  simp only [ha, hw, hk]

/-- **Wedges are averages over mu.** The bin `(j, i)` of the result carries the wavenumber of the bin of the multipoles
and the middle of the wedge. Its power is the average over the wedge of the power that the even multipoles add up to:
for every polynomial `Q` with `Q' = sum over even ell of P_ell L_ell`, it is `(Q(hi) - Q(lo)) / (hi - lo)`. -/
theorem pkmu_average (p : Poles) (muEdges : List ℚ) (maxEll i j : Nat) (lo hi k : ℚ) (cols : List (List Bin))
    (hm : Measured p maxEll) (hr : toPkmu p muEdges maxEll = .ok cols)
    (hlo : muEdges[i]? = some lo) (hhi : muEdges[i + 1]? = some hi) (hne : lo ≠ hi) (hk : p.k[j]? = some k)
    (Q : ℚ[X]) (hQ : derivative Q = ((List.range (maxEll + 1)).map fun e =>
      if e % 2 = 0 then C (value p e j) * toPoly (legendre e) else 0).sum) :
    ∃ col b, cols[i]? = some col ∧ col.length = p.k.length ∧ col[j]? = some b ∧
      b.k = k ∧ b.mu = (lo + hi) / 2 ∧ b.power = (Q.eval hi - Q.eval lo) / (hi - lo) := by
  have hm' : ∀ e ∈ ells maxEll, ∃ v, p.power.lookup e = some v ∧ v.length = p.k.length := fun e he =>
    hm e ((mem_ells _ _).mp he).1 ((mem_ells _ _).mp he).2
  obtain ⟨col, h1, h2, h3⟩ := toPkmu_get p muEdges maxEll i j lo hi k cols hm' hr hlo hhi hk
  refine ⟨col, _, h1, h2, h3, rfl, by simp only; ring, ?_⟩
  simp only
  -- the polynomial of the even multipoles
  have hsum : ((List.range (maxEll + 1)).map fun e =>
      if e % 2 = 0 then C (value p e j) * toPoly (legendre e) else 0).sum =
      ((ells maxEll).map fun e => C (value p e j) * toPoly (legendre e)).sum := by
    clear hQ hm hm' hr h1 h2 h3
    unfold ells
    have key : ∀ n : Nat, ((List.range (n + 1)).map fun e =>
        if e % 2 = 0 then C (value p e j) * toPoly (legendre e) else 0).sum =
        (((List.range (n / 2 + 1)).map (2 * ·)).map fun e => C (value p e j) * toPoly (legendre e)).sum := by
      intro n
      induction n with
      | zero => simp
      | succ n ih =>
        rw [List.range_succ, List.map_append, List.sum_append, ih]
        by_cases h : (n + 1) % 2 = 0
        · have e1 : (n + 1) / 2 = n / 2 + 1 := by omega
          have e2 : 2 * (n / 2 + 1) = n + 1 := by omega
          rw [e1, List.range_succ (n := n / 2 + 1), List.map_append, List.map_append, List.sum_append]
          simp [h, e2]
        · have e1 : (n + 1) / 2 = n / 2 := by omega
          rw [e1]; simp [h]
    exact key maxEll
  rw [hsum] at hQ
  have hd : ∀ l : List Nat, ∃ R : ℚ[X], derivative R = (l.map fun e => C (value p e j) * toPoly (legendre e)).sum ∧
      R.eval hi - R.eval lo = (l.map fun e => value p e j * integ (legendre e) lo hi).sum := by
    intro l
    induction l with
    | nil => exact ⟨0, by simp, by simp⟩
    | cons e l ih =>
      obtain ⟨R, hR, hE⟩ := ih
      have ha : derivative (anti 0 (legendre e)) = toPoly (legendre e) := by rw [derivative_anti]; simp
      refine ⟨C (value p e j) * anti 0 (legendre e) + R, ?_, ?_⟩
      · rw [derivative_add, derivative_C_mul, ha, hR]; simp
      · rw [List.map_cons, List.sum_cons, ← hE, integ_eq _ _ ha]
        simp only [eval_add, eval_mul, eval_C]; ring
  obtain ⟨R, hR, hE⟩ := hd (ells maxEll)
  obtain ⟨c, hc⟩ : ∃ c, Q - R = C c :=
    ⟨_, eq_C_of_natDegree_eq_zero (natDegree_eq_zero_of_derivative_eq_zero (by rw [derivative_sub, hQ, hR, sub_self]))⟩
  have hq : Q = R + C c := by rw [← hc]; ring
  have hQE : Q.eval hi - Q.eval lo = R.eval hi - R.eval lo := by rw [hq]; simp
  rw [hQE, hE]
  have hne' : hi - lo ≠ 0 := sub_ne_zero.mpr (Ne.symm hne)
  rw [eq_div_iff hne', ← List.sum_map_mul_right]
  congr 1
  apply List.map_congr_left
  intro e _
  unfold coefficient
  field_simp

/-- A single bin, without a polynomial: the multipoles times the averages of the Legendre polynomials. -/
theorem pkmu_bin (p : Poles) (maxEll j : Nat) (lo hi k : ℚ) (cols : List (List Bin)) (muEdges : List ℚ) (i : Nat)
    (hm : Measured p maxEll) (hr : toPkmu p muEdges maxEll = .ok cols)
    (hlo : muEdges[i]? = some lo) (hhi : muEdges[i + 1]? = some hi) (hk : p.k[j]? = some k) :
    ∃ col b, cols[i]? = some col ∧ col[j]? = some b ∧
      b.power = ((List.range (maxEll / 2 + 1)).map fun m =>
        integ (legendre (2 * m)) lo hi / (hi - lo) * value p (2 * m) j).sum := by
  have hm' : ∀ e ∈ ells maxEll, ∃ v, p.power.lookup e = some v ∧ v.length = p.k.length := fun e he =>
    hm e ((mem_ells _ _).mp he).1 ((mem_ells _ _).mp he).2
  obtain ⟨col, h1, _, h3⟩ := toPkmu_get p muEdges maxEll i j lo hi k cols hm' hr hlo hhi hk
  refine ⟨col, _, h1, h3, ?_⟩
  simp only [ells, List.map_map]
  congr 1
  apply List.map_congr_left
  intro e _
  simp only [Function.comp, coefficient]
  ring

/-- The power of a bin, zero if there is none. -/
def powerAt (cols : List (List Bin)) (i j : Nat) : ℚ := ((cols[i]?.bind (·[j]?)).map (·.power)).getD 0

theorem powerAt_eq (p : Poles) (maxEll j : Nat) (k : ℚ) (cols : List (List Bin)) (muEdges : List ℚ) (i : Nat) (lo hi : ℚ)
    (hm : Measured p maxEll) (hr : toPkmu p muEdges maxEll = .ok cols)
    (hlo : muEdges[i]? = some lo) (hhi : muEdges[i + 1]? = some hi) (hk : p.k[j]? = some k) (hne : lo ≠ hi) :
    (hi - lo) * powerAt cols i j = ((List.range (maxEll / 2 + 1)).map fun m =>
      value p (2 * m) j * integ (legendre (2 * m)) lo hi).sum := by
  obtain ⟨col, b, h1, h2, h3⟩ := pkmu_bin p maxEll j lo hi k cols muEdges i hm hr hlo hhi hk
  have hne' : hi - lo ≠ 0 := sub_ne_zero.mpr (Ne.symm hne)
  have : powerAt cols i j = b.power := by simp [powerAt, h1, h2]
  rw [this, h3, ← List.sum_map_mul_left]
  congr 1
  apply List.map_congr_left
  intro e _
  field_simp

/-- The width-weighted sum of the first `n` wedges. -/
theorem partial_sum (p : Poles) (maxEll j : Nat) (k : ℚ) (cols : List (List Bin)) (muEdges : List ℚ)
    (hm : Measured p maxEll) (hr : toPkmu p muEdges maxEll = .ok cols) (hk : p.k[j]? = some k)
    (hd : ∀ i lo hi, muEdges[i]? = some lo → muEdges[i + 1]? = some hi → lo ≠ hi)
    (n : Nat) (hn : n < muEdges.length) :
    ((List.range n).map fun i => (muEdges.getD (i + 1) 0 - muEdges.getD i 0) * powerAt cols i j).sum =
      ((List.range (maxEll / 2 + 1)).map fun m =>
        value p (2 * m) j * integ (legendre (2 * m)) (muEdges.getD 0 0) (muEdges.getD n 0)).sum := by
  induction n with
  | zero =>
    have h0 : ∀ (q : List ℚ) (a : ℚ), integ q a a = 0 := by
      intro q a
      have := integ_add q a a a
      linarith
    simp [h0]
  | succ n ih =>
    rw [List.range_succ, List.map_append, List.sum_append, ih (by omega)]
    have hlo : muEdges[n]? = some (muEdges.getD n 0) := by
      simp [List.getD_eq_getElem?_getD, List.getElem?_eq_getElem (show n < muEdges.length by omega)]
    have hhi : muEdges[n + 1]? = some (muEdges.getD (n + 1) 0) := by
      simp [List.getD_eq_getElem?_getD, List.getElem?_eq_getElem hn]
    simp only [List.map_cons, List.map_nil, List.sum_cons, List.sum_nil, add_zero]
    rw [powerAt_eq p maxEll j k cols muEdges n _ _ hm hr hlo hhi hk (hd n _ _ hlo hhi), ← List.sum_map_add]
    congr 1
    apply List.map_congr_left
    intro m _
    rw [← integ_add _ (muEdges.getD 0 0) (muEdges.getD n 0) (muEdges.getD (n + 1) 0)]
    ring

/-- **The wedges do not depend on how mu is cut.** The width-weighted sum of the wedges is that of one wedge from the
first edge to the last. -/
theorem pkmu_telescope (p : Poles) (maxEll j : Nat) (k lo hi : ℚ) (cols one : List (List Bin)) (muEdges : List ℚ)
    (hm : Measured p maxEll) (hr : toPkmu p muEdges maxEll = .ok cols) (hk : p.k[j]? = some k)
    (hd : ∀ i lo hi, muEdges[i]? = some lo → muEdges[i + 1]? = some hi → lo ≠ hi)
    (hfirst : muEdges.head? = some lo) (hlast : muEdges.getLast? = some hi) (hne : lo ≠ hi)
    (h1 : toPkmu p [lo, hi] maxEll = .ok one) :
    ((List.range (muEdges.length - 1)).map fun i =>
      (muEdges.getD (i + 1) 0 - muEdges.getD i 0) * powerAt cols i j).sum = (hi - lo) * powerAt one 0 j := by
  have hlen : 0 < muEdges.length := by
    cases muEdges with
    | nil => simp at hfirst
    | cons a l => simp
  rw [partial_sum p maxEll j k cols muEdges hm hr hk hd _ (by omega),
    powerAt_eq p maxEll j k one [lo, hi] 0 lo hi hm h1 (by simp) (by simp) hk hne]
  have e1 : muEdges.getD 0 0 = lo := by
    rw [List.getD_eq_getElem?_getD, ← List.head?_eq_getElem?, hfirst]; rfl
  have e2 : muEdges.getD (muEdges.length - 1) 0 = hi := by
    rw [List.getD_eq_getElem?_getD, ← List.getLast?_eq_getElem?, hlast]; rfl
  rw [e1, e2]

/-- **The wedges average to the monopole.** When the wedges cover `mu` from 0 to 1, or from -1 to 1, the width-weighted
average of the wedges is the monopole, whatever the higher multipoles. -/
theorem pkmu_monopole (p : Poles) (maxEll j : Nat) (k lo : ℚ) (cols : List (List Bin)) (muEdges : List ℚ)
    (hm : Measured p maxEll) (hr : toPkmu p muEdges maxEll = .ok cols) (hk : p.k[j]? = some k)
    (hd : ∀ i lo hi, muEdges[i]? = some lo → muEdges[i + 1]? = some hi → lo ≠ hi)
    (hfirst : muEdges.head? = some lo) (hlast : muEdges.getLast? = some 1) (h01 : lo = 0 ∨ lo = -1) :
    ((List.range (muEdges.length - 1)).map fun i =>
      (muEdges.getD (i + 1) 0 - muEdges.getD i 0) * powerAt cols i j).sum = (1 - lo) * value p 0 j := by
  have hlen : 0 < muEdges.length := by
    cases muEdges with
    | nil => simp at hfirst
    | cons a l => simp
  rw [partial_sum p maxEll j k cols muEdges hm hr hk hd _ (by omega)]
  have e1 : muEdges.getD 0 0 = lo := by
    rw [List.getD_eq_getElem?_getD, ← List.head?_eq_getElem?, hfirst]; rfl
  have e2 : muEdges.getD (muEdges.length - 1) 0 = 1 := by
    rw [List.getD_eq_getElem?_getD, ← List.getLast?_eq_getElem?, hlast]; rfl
  have hz : ∀ m : Nat, integ (legendre (2 * (m + 1))) lo 1 = 0 := by
    intro m
    rcases h01 with h | h
    · rw [h, integ_half]
    · rw [h]; exact integ_full (2 * m + 1)
  rw [e1, e2, List.range_succ_eq_map, List.map_cons, List.sum_cons, List.map_map]
  have : ((fun m => value p (2 * m) j * integ (legendre (2 * m)) lo 1) ∘ Nat.succ) = fun _ => (0 : ℚ) := by
    funext m
    simp only [Function.comp, Nat.succ_eq_add_one, hz, mul_zero]
  rw [this]
  simp [integ_zero]
  ring

/-- There is one wedge between any two neighbouring edges. -/
theorem pkmu_edges (p : Poles) (muEdges : List ℚ) (maxEll : Nat) (cols : List (List Bin))
    (hr : toPkmu p muEdges maxEll = .ok cols) : cols.length = muEdges.length - 1 := by
  unfold toPkmu at hr
  split at hr
  · exact absurd hr (by simp)
  · injection hr with hr
    rw [← hr]; simp

/-- Two multipoles in two bins. -/
def sample : Poles := ⟨[(0, [10, 20]), (1, [7, 7]), (2, [4, 8])], [1 / 10, 2 / 10]⟩

example : Measured sample 3 := by
  intro e h1 h2
  have : e = 0 ∨ e = 2 := by omega
  rcases this with rfl | rfl <;> simp [sample, List.lookup]

example : toPkmu sample [0, 1 / 2, 1] 3 = .ok
    [[⟨17 / 2, 1 / 10, 1 / 4⟩, ⟨17, 2 / 10, 1 / 4⟩], [⟨23 / 2, 1 / 10, 3 / 4⟩, ⟨23, 2 / 10, 3 / 4⟩]] := by decide +kernel

example : toPkmu sample [0, 1] 4 = .error .valueError := by decide +kernel

example : legendre 4 = [3 / 8, 0, -15 / 4, 0, 35 / 8] := by decide +kernel

end NBK.Pkmu
