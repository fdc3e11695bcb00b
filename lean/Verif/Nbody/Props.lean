import Verif.Nbody.Model
import Mathlib.Analysis.Calculus.MeanValue
import Mathlib.Analysis.SpecialFunctions.Log.Deriv
import Mathlib.Tactic.FieldSimp
import Mathlib.Tactic.Linarith
import Mathlib.Tactic.NormNum

/-! # The linear fluid model: arrays, seeds and what is conserved -/
set_option linter.unusedSimpArgs false
namespace NBK.Nbody
open NBK.Growth (Fluids)

theorem flat_length (l : List V3) : (flat l).length = 3 * l.length := by
  induction l with
  | nil => rfl
  | cons v l ih => simp only [flat, List.length_cons, ih]; omega

theorem rows_flat (l : List V3) (r : List ℝ) : rows l.length (flat l ++ r) = l := by
  induction l with
  | nil => rfl
  | cons v l ih =>
    show (v.1, v.2.1, v.2.2) :: rows l.length (flat l ++ r) = v :: l
    rw [ih]

theorem rows_flat' (l : List V3) : rows l.length (flat l) = l := by
  have := rows_flat l []
  rwa [List.append_nil] at this

theorem marshal_half (q p : List V3) (h : p.length = q.length) : (marshal q p).length / 2 = (flat q).length := by
  unfold marshal
  rw [List.length_append, flat_length, flat_length, h]
  omega

/-- The two arrays come back from the vector. -/
theorem unmarshal (q p : List V3) (h : p.length = q.length) :
    rows q.length ((marshal q p).take ((marshal q p).length / 2)) = q ∧ rows q.length ((marshal q p).drop ((marshal q p).length / 2)) = p := by
  rw [marshal_half q p h]
  unfold marshal
  rw [List.take_left, List.drop_left]
  exact ⟨rows_flat' q, by rw [← h]; exact rows_flat' p⟩

/-- The wavenumber of a row. -/
def kAt (k : List ℝ) (j : Nat) : ℝ := if k.length = 1 then k.getD 0 0 else k.getD j 0

theorem spread_length (n : Nat) (k : List ℝ) (hk : k.length = 1 ∨ k.length = n) : (spread n k).length = n := by
  unfold spread
  split
  · simp
  · rename_i h; exact hk.resolve_left h

theorem spread_get (n : Nat) (k : List ℝ) (hk : k.length = 1 ∨ k.length = n) (j : Nat) (hj : j < n) : (spread n k)[j]? = some (kAt k j) := by
  unfold spread kAt
  by_cases h : k.length = 1
  · rw [if_pos h, if_pos h, List.getElem?_replicate, if_pos hj]
  · rw [if_neg h, if_neg h]
    have : j < k.length := by rw [hk.resolve_left h]; exact hj
    rw [List.getElem?_eq_getElem this, List.getD_eq_getElem?_getD, List.getElem?_eq_getElem this]
    rfl

/-- C129: the function that is integrated acts on every mode by itself: row `j` of the result is the right hand side for the wavenumber, displacement and momentum of row `j`. -/
theorem func_modes (f : Fluids) (k : List ℝ) (q p : List V3) (hp : p.length = q.length) (hk : k.length = 1 ∨ k.length = q.length) (lna : ℝ) :
    ∃ dq dp : List V3, func f k q.length lna (marshal q p) = marshal dq dp ∧ dq.length = q.length ∧ dp.length = q.length ∧
      ∀ (j : Nat) (x y : V3), q[j]? = some x → p[j]? = some y → dq[j]? = some (f.rhs (kAt k j) lna x y).1 ∧ dp[j]? = some (f.rhs (kAt k j) lna x y).2 := by
  obtain ⟨h1, h2⟩ := unmarshal q p hp
  let d := (spread q.length k).zipWith (fun k x => f.rhs k lna x.1 x.2) (q.zip p)
  refine ⟨d.map Prod.fst, d.map Prod.snd, ?_, ?_, ?_, ?_⟩
  · unfold func
    dsimp only
    rw [h1, h2]
  · simp [d, spread_length _ k hk, hp]
  · simp [d, spread_length _ k hk, hp]
  · intro j x y hx hy
    have hj := (List.getElem?_eq_some_iff.mp hx).1
    have hd : d[j]? = some (f.rhs (kAt k j) lna x y) := by
      simp only [d]
      rw [List.getElem?_zipWith, spread_get _ k hk j hj]
      have : (q.zip p)[j]? = some (x, y) := by rw [List.getElem?_zip_eq_some]; exact ⟨hx, hy⟩
      rw [this]
    rw [List.getElem?_map, List.getElem?_map, hd]
    exact ⟨rfl, rfl⟩

/-- The components of the solution at the times that were asked for, as `solve_ivp` returns them. -/
def sampled (y : ℝ → List ℝ) (m : Nat) (ts : List ℝ) : List (List ℝ) := (List.range m).map fun i => ts.map fun t => (y t).getD i 0

theorem sampled_at (y : ℝ → List ℝ) (ts : List ℝ) (m : Nat) (hy : ∀ t, (y t).length = m) (i : Nat) (t : ℝ) (ht : ts[i]? = some t) :
    (sampled y m ts).map (fun l => l.getD i 0) = y t := by
  refine List.ext_getElem? fun n => ?_
  unfold sampled
  rw [List.map_map, List.getElem?_map]
  by_cases hn : n < m
  · rw [List.getElem?_range hn]
    show some ((ts.map fun t => (y t).getD n 0).getD i 0) = _
    rw [List.getD_eq_getElem?_getD, List.getElem?_map, ht]
    show some ((y t).getD n 0) = _
    have : n < (y t).length := by rw [hy]; exact hn
    rw [List.getD_eq_getElem?_getD, List.getElem?_eq_getElem this]
    rfl
  · rw [List.getElem?_eq_none (by simp; omega), List.getElem?_eq_none (by rw [hy]; omega)]
    rfl

/-- C129: if the solver returns the values of a vector function of the right size at the times that it is given, `integrate` returns for every scale factor the displacements and the
momenta that this function holds at its logarithm. -/
theorem integrate_spec (solve : Solver) (f : Fluids) (k : List ℝ) (q0 p0 : List V3) (a : List ℝ) (hp : p0.length = q0.length) (hk : k.length = 1 ∨ k.length = q0.length)
    (t0 t1 : ℝ) (h0 : a.head? = some t0) (h1 : a.getLast? = some t1) (Q P : ℝ → List V3) (hQ : ∀ t, (Q t).length = q0.length) (hP : ∀ t, (P t).length = q0.length)
    (hs : solve (func f k q0.length) (Real.log t0) (Real.log t1) (marshal q0 p0) (a.map Real.log) =
      .ok (a.map Real.log, sampled (fun t => marshal (Q t) (P t)) (6 * q0.length) (a.map Real.log))) (hpos : ∀ x ∈ a, 0 < x) :
    integrate solve f k q0 p0 a = .ok (a, a.map fun x => Q (Real.log x), a.map fun x => P (Real.log x)) := by
  unfold integrate
  dsimp only
  have e0 : (a.map Real.log).head? = some (Real.log t0) := by rw [List.head?_map, h0]; rfl
  have e1 : (a.map Real.log).getLast? = some (Real.log t1) := by rw [List.getLast?_map, h1]; rfl
  rw [e0, e1]
  dsimp only
  rw [if_neg (by rintro (h | ⟨h, h'⟩); exacts [h hp, hk.elim h h']), hs]
  show Except.ok _ = _
  congr 1
  have hm : ∀ t, (marshal (Q t) (P t)).length = 6 * q0.length := by
    intro t
    unfold marshal
    rw [List.length_append, flat_length, flat_length, hQ, hP]
    omega
  have hh : (marshal q0 p0).length / 2 = 3 * q0.length := by rw [marshal_half _ _ hp, flat_length]
  have htake : ∀ i x, a[i]? = some x → (((sampled (fun t => marshal (Q t) (P t)) (6 * q0.length) (a.map Real.log)).take (3 * q0.length)).map fun l => l.getD i 0) = flat (Q (Real.log x)) := by
    intro i x hx
    rw [← List.map_take.symm, sampled_at _ _ _ hm i (Real.log x) (by rw [List.getElem?_map, hx]; rfl)]
    unfold marshal
    rw [← hQ (Real.log x), ← flat_length, List.take_left]
  have hdrop : ∀ i x, a[i]? = some x → (((sampled (fun t => marshal (Q t) (P t)) (6 * q0.length) (a.map Real.log)).drop (3 * q0.length)).map fun l => l.getD i 0) = flat (P (Real.log x)) := by
    intro i x hx
    rw [List.map_drop, sampled_at _ _ _ hm i (Real.log x) (by rw [List.getElem?_map, hx]; rfl)]
    unfold marshal
    rw [← hQ (Real.log x), ← flat_length, List.drop_left]
  refine Prod.ext ?_ (Prod.ext ?_ ?_)
  · dsimp only
    rw [List.map_map]
    conv_rhs => rw [← List.map_id a]
    exact List.map_congr_left fun x hx => Real.exp_log (hpos x hx)
  · dsimp only
    refine List.ext_getElem? fun i => ?_
    rw [List.getElem?_map, List.getElem?_map, List.length_map]
    cases hx : a[i]? with
    | none =>
      rw [List.getElem?_eq_none (by rw [List.length_range]; exact List.getElem?_eq_none_iff.mp hx)]
      rfl
    | some x =>
      rw [List.getElem?_range (List.getElem?_eq_some_iff.mp hx).1]
      show some (atTime _ _ i) = some _
      unfold atTime
      rw [hh, htake i x hx, ← hQ (Real.log x), rows_flat']
  · dsimp only
    refine List.ext_getElem? fun i => ?_
    rw [List.getElem?_map, List.getElem?_map, List.length_map]
    cases hx : a[i]? with
    | none =>
      rw [List.getElem?_eq_none (by rw [List.length_range]; exact List.getElem?_eq_none_iff.mp hx)]
      rfl
    | some x =>
      rw [List.getElem?_range (List.getElem?_eq_some_iff.mp hx).1]
      show some (atTime _ _ i) = some _
      unfold atTime
      rw [hh, hdrop i x hx, hp, ← hP (Real.log x), rows_flat']

/-- C129: what is refused: no scale factor, arrays of different lengths, and wavenumbers that are neither one nor one per row. -/
theorem integrate_refused (solve : Solver) (f : Fluids) (k : List ℝ) (q0 p0 : List V3) (a : List ℝ) :
    (a = [] → integrate solve f k q0 p0 a = .error .indexError) ∧
      (a ≠ [] → p0.length ≠ q0.length ∨ (k.length ≠ 1 ∧ k.length ≠ q0.length) → integrate solve f k q0 p0 a = .error .valueError) := by
  constructor
  · rintro rfl; rfl
  · intro ha h
    cases a with
    | nil => exact absurd rfl ha
    | cons x l =>
      unfold integrate
      dsimp only
      have : (List.map Real.log (x :: l)).getLast? = some ((List.map Real.log (x :: l)).getLast (by simp)) := List.getLast?_eq_some_getLast _
      rw [this]
      show (if _ then _ else _) = _
      rw [if_pos h]

/-- The six equations of a mode. -/
structure ModeOde (f : Fluids) (k : ℝ) (Q P : ℝ → V3) : Prop where
  q1 : ∀ t, HasDerivAt (fun s => (Q s).1) (f.rhs k t (Q t) (P t)).1.1 t
  q2 : ∀ t, HasDerivAt (fun s => (Q s).2.1) (f.rhs k t (Q t) (P t)).1.2.1 t
  q3 : ∀ t, HasDerivAt (fun s => (Q s).2.2) (f.rhs k t (Q t) (P t)).1.2.2 t
  p1 : ∀ t, HasDerivAt (fun s => (P s).1) (f.rhs k t (Q t) (P t)).2.1 t
  p2 : ∀ t, HasDerivAt (fun s => (P s).2.1) (f.rhs k t (Q t) (P t)).2.2.1 t
  p3 : ∀ t, HasDerivAt (fun s => (P s).2.2) (f.rhs k t (Q t) (P t)).2.2.2 t

theorem flat_get : ∀ (l : List V3) (j : Nat) (v : V3), l[j]? = some v → (flat l)[3 * j]? = some v.1 ∧ (flat l)[3 * j + 1]? = some v.2.1 ∧ (flat l)[3 * j + 2]? = some v.2.2
  | [], _, _, h => by simp at h
  | w :: l, 0, v, h => by cases h; exact ⟨rfl, rfl, rfl⟩
  | w :: l, j + 1, v, h => by
    obtain ⟨h1, h2, h3⟩ := flat_get l j v (by simpa using h)
    refine ⟨?_, ?_, ?_⟩
    · rw [show 3 * (j + 1) = 3 * j + 3 by omega]; exact h1
    · rw [show 3 * (j + 1) + 1 = (3 * j + 1) + 3 by omega]; exact h2
    · rw [show 3 * (j + 1) + 2 = (3 * j + 2) + 3 by omega]; exact h3

theorem marshal_get (q p : List V3) (j : Nat) (x y : V3) (hx : q[j]? = some x) (hy : p[j]? = some y) :
    (marshal q p).getD (3 * j) 0 = x.1 ∧ (marshal q p).getD (3 * j + 1) 0 = x.2.1 ∧ (marshal q p).getD (3 * j + 2) 0 = x.2.2 ∧
    (marshal q p).getD (3 * q.length + 3 * j) 0 = y.1 ∧ (marshal q p).getD (3 * q.length + (3 * j + 1)) 0 = y.2.1 ∧ (marshal q p).getD (3 * q.length + (3 * j + 2)) 0 = y.2.2 := by
  obtain ⟨a1, a2, a3⟩ := flat_get q j x hx
  obtain ⟨b1, b2, b3⟩ := flat_get p j y hy
  have hj := (List.getElem?_eq_some_iff.mp hx).1
  have left : ∀ n : Nat, n < 3 * q.length → (marshal q p)[n]? = (flat q)[n]? := fun n hn => by
    unfold marshal; rw [List.getElem?_append_left (by rw [flat_length]; exact hn)]
  have right : ∀ n : Nat, (marshal q p)[3 * q.length + n]? = (flat p)[n]? := fun n => by
    unfold marshal; rw [List.getElem?_append_right (by rw [flat_length]; omega), flat_length, Nat.add_sub_cancel_left]
  simp only [List.getD_eq_getElem?_getD]
  rw [left _ (by omega), left _ (by omega), left _ (by omega), right, right, right, a1, a2, a3, b1, b2, b3]
  exact ⟨rfl, rfl, rfl, rfl, rfl, rfl⟩

/-- C129: the vector of all modes solves the equation that is given to the solver exactly when every mode solves its own six equations. -/
theorem vector_ode_iff (f : Fluids) (k : List ℝ) (n : Nat) (hk : k.length = 1 ∨ k.length = n) (Q P : Nat → ℝ → V3) :
    (let y := fun t => marshal ((List.range n).map fun j => Q j t) ((List.range n).map fun j => P j t)
      ∀ i, i < 6 * n → ∀ t, HasDerivAt (fun s => (y s).getD i 0) ((func f k n t (y t)).getD i 0) t) ↔ ∀ j, j < n → ModeOde f (kAt k j) (Q j) (P j) := by
  dsimp only
  have hq : ∀ t (j : Nat), j < n → ((List.range n).map fun j => Q j t)[j]? = some (Q j t) := fun t j hj => by rw [List.getElem?_map, List.getElem?_range hj]; rfl
  have hp : ∀ t (j : Nat), j < n → ((List.range n).map fun j => P j t)[j]? = some (P j t) := fun t j hj => by rw [List.getElem?_map, List.getElem?_range hj]; rfl
  -- the six entries of a mode, in the vector and in its derivative
  have hv : ∀ t (j : Nat), j < n →
      let y := marshal ((List.range n).map fun j => Q j t) ((List.range n).map fun j => P j t)
      (y.getD (3 * j) 0 = (Q j t).1 ∧ y.getD (3 * j + 1) 0 = (Q j t).2.1 ∧ y.getD (3 * j + 2) 0 = (Q j t).2.2 ∧
        y.getD (3 * n + 3 * j) 0 = (P j t).1 ∧ y.getD (3 * n + (3 * j + 1)) 0 = (P j t).2.1 ∧ y.getD (3 * n + (3 * j + 2)) 0 = (P j t).2.2) := by
    intro t j hj
    have := marshal_get _ _ j _ _ (hq t j hj) (hp t j hj)
    rw [List.length_map, List.length_range] at this
    exact this
  have hd : ∀ t (j : Nat), j < n →
      let d := func f k n t (marshal ((List.range n).map fun j => Q j t) ((List.range n).map fun j => P j t))
      let r := f.rhs (kAt k j) t (Q j t) (P j t)
      (d.getD (3 * j) 0 = r.1.1 ∧ d.getD (3 * j + 1) 0 = r.1.2.1 ∧ d.getD (3 * j + 2) 0 = r.1.2.2 ∧
        d.getD (3 * n + 3 * j) 0 = r.2.1 ∧ d.getD (3 * n + (3 * j + 1)) 0 = r.2.2.1 ∧ d.getD (3 * n + (3 * j + 2)) 0 = r.2.2.2) := by
    intro t j hj
    obtain ⟨dq, dp, h1, h2, h3, h4⟩ := func_modes f k ((List.range n).map fun j => Q j t) ((List.range n).map fun j => P j t) (by simp) (by simpa using hk) t
    rw [List.length_map, List.length_range] at h1 h2
    obtain ⟨e1, e2⟩ := h4 j _ _ (hq t j hj) (hp t j hj)
    dsimp only
    rw [h1]
    have := marshal_get dq dp j _ _ e1 e2
    rw [h2] at this
    exact this
  constructor
  · intro h j hj
    refine ⟨fun t => ?_, fun t => ?_, fun t => ?_, fun t => ?_, fun t => ?_, fun t => ?_⟩
    · have := h (3 * j) (by omega) t
      rw [(hd t j hj).1] at this
      exact this.congr_of_eventuallyEq (Filter.Eventually.of_forall fun s => (hv s j hj).1.symm)
    · have := h (3 * j + 1) (by omega) t
      rw [(hd t j hj).2.1] at this
      exact this.congr_of_eventuallyEq (Filter.Eventually.of_forall fun s => (hv s j hj).2.1.symm)
    · have := h (3 * j + 2) (by omega) t
      rw [(hd t j hj).2.2.1] at this
      exact this.congr_of_eventuallyEq (Filter.Eventually.of_forall fun s => (hv s j hj).2.2.1.symm)
    · have := h (3 * n + 3 * j) (by omega) t
      rw [(hd t j hj).2.2.2.1] at this
      exact this.congr_of_eventuallyEq (Filter.Eventually.of_forall fun s => (hv s j hj).2.2.2.1.symm)
    · have := h (3 * n + (3 * j + 1)) (by omega) t
      rw [(hd t j hj).2.2.2.2.1] at this
      exact this.congr_of_eventuallyEq (Filter.Eventually.of_forall fun s => (hv s j hj).2.2.2.2.1.symm)
    · have := h (3 * n + (3 * j + 2)) (by omega) t
      rw [(hd t j hj).2.2.2.2.2] at this
      exact this.congr_of_eventuallyEq (Filter.Eventually.of_forall fun s => (hv s j hj).2.2.2.2.2.symm)
  · intro h i hi t
    -- which mode and which of its six entries
    obtain ⟨j, hj, hc⟩ : ∃ j, j < n ∧ (i = 3 * j ∨ i = 3 * j + 1 ∨ i = 3 * j + 2 ∨ i = 3 * n + 3 * j ∨ i = 3 * n + (3 * j + 1) ∨ i = 3 * n + (3 * j + 2)) := by
      by_cases h3 : i < 3 * n
      · exact ⟨i / 3, by omega, by omega⟩
      · exact ⟨(i - 3 * n) / 3, by omega, by omega⟩
    have hm := h j hj
    rcases hc with rfl | rfl | rfl | rfl | rfl | rfl
    · rw [(hd t j hj).1]
      exact (hm.q1 t).congr_of_eventuallyEq (Filter.Eventually.of_forall fun s => (hv s j hj).1)
    · rw [(hd t j hj).2.1]
      exact (hm.q2 t).congr_of_eventuallyEq (Filter.Eventually.of_forall fun s => (hv s j hj).2.1)
    · rw [(hd t j hj).2.2.1]
      exact (hm.q3 t).congr_of_eventuallyEq (Filter.Eventually.of_forall fun s => (hv s j hj).2.2.1)
    · rw [(hd t j hj).2.2.2.1]
      exact (hm.p1 t).congr_of_eventuallyEq (Filter.Eventually.of_forall fun s => (hv s j hj).2.2.2.1)
    · rw [(hd t j hj).2.2.2.2.1]
      exact (hm.p2 t).congr_of_eventuallyEq (Filter.Eventually.of_forall fun s => (hv s j hj).2.2.2.2.1)
    · rw [(hd t j hj).2.2.2.2.2]
      exact (hm.p3 t).congr_of_eventuallyEq (Filter.Eventually.of_forall fun s => (hv s j hj).2.2.2.2.2)

/-- C129: without sound speed the difference of the momenta of baryons and cold matter never changes, for every background, wavenumber and solution. -/
theorem momentum_conserved (f : Fluids) (k : ℝ) (Q P : ℝ → V3) (h : ModeOde f k Q P) :
    (f.cb = 0 → ∀ s t, (P s).2.1 - (P s).1 = (P t).2.1 - (P t).1) ∧ ((∀ a, f.cncdm a = 0) → ∀ s t, (P s).2.2 - (P s).1 = (P t).2.2 - (P t).1) := by
  constructor
  · intro hc s t
    have hd : ∀ x, HasDerivAt (fun x => (P x).2.1 - (P x).1) 0 x := fun x => ((h.p2 x).sub (h.p1 x)).congr_deriv (by simp [Fluids.rhs, Fluids.J, hc])
    exact is_const_of_deriv_eq_zero (fun x => (hd x).differentiableAt) (fun x => (hd x).deriv) s t
  · intro hc s t
    have hd : ∀ x, HasDerivAt (fun x => (P x).2.2 - (P x).1) 0 x := fun x => ((h.p3 x).sub (h.p1 x)).congr_deriv (by simp [Fluids.rhs, Fluids.J, hc])
    exact is_const_of_deriv_eq_zero (fun x => (hd x).differentiableAt) (fun x => (hd x).deriv) s t

/-- C129: species that start together stay together when nothing but gravity acts on them. -/
theorem species_together (f : Fluids) (k : ℝ) (Q P : ℝ → V3) (h : ModeOde f k Q P) (hc : f.cb = 0) (t0 : ℝ) (hq : (Q t0).2.1 = (Q t0).1) (hp : (P t0).2.1 = (P t0).1) :
    ∀ t, (P t).2.1 = (P t).1 ∧ (Q t).2.1 = (Q t).1 := by
  have hP : ∀ t, (P t).2.1 = (P t).1 := fun t => by
    have := (momentum_conserved f k Q P h).1 hc t t0
    rw [hp, sub_self] at this
    exact sub_eq_zero.mp this
  intro t
  refine ⟨hP t, ?_⟩
  have hd : ∀ x, HasDerivAt (fun x => (Q x).2.1 - (Q x).1) 0 x := fun x => ((h.q2 x).sub (h.q1 x)).congr_deriv (by simp [Fluids.rhs, hP x])
  have := is_const_of_deriv_eq_zero (fun x => (hd x).differentiableAt) (fun x => (hd x).deriv) t t0
  rw [hq, sub_self] at this
  exact sub_eq_zero.mp this

/-- C129: the velocity of the neutrinos falls with the scale factor and with the mass of the first species; it is only switched off by a number that is not positive; and without a mass in
the background the default velocity is an IndexError. -/
theorem fluids_spec (g : Background) (c_b c1 : ℝ) :
    (g.m_ncdm = [] → 0 < c1 → fluids g c_b c1 = .error .indexError) ∧
    (∀ m l, g.m_ncdm = m :: l → 0 < m → 0 < c1 → ∃ f, fluids g c_b c1 = .ok f ∧ f.cb = c_b ∧ (∀ a, 0 < a → f.cncdm a * (a * m) = c1) ∧ ∀ z, -1 < z → f.efunc (1 / (1 + z)) = g.efunc z) ∧
    (c1 ≤ 0 → ∃ f, fluids g c_b c1 = .ok f ∧ f.cb = c_b ∧ (∀ a, f.cncdm a = 0) ∧ ∀ z, -1 < z → f.efunc (1 / (1 + z)) = g.efunc z ∧ f.cdm (1 / (1 + z)) = g.Omega_cdm z ∧
      f.b (1 / (1 + z)) = g.Omega_b z ∧ f.ncdm (1 / (1 + z)) = g.Omega_ncdm z) := by
  have hz : ∀ z : ℝ, 1 / (1 / (1 + z)) - 1 = z := fun z => by rw [one_div_one_div]; ring
  refine ⟨fun h hc => ?_, fun m l h hm hc => ?_, fun hc => ?_⟩
  · unfold fluids
    dsimp only
    rw [if_pos hc, h]
  · unfold fluids
    dsimp only
    rw [if_pos hc, h]
    refine ⟨_, rfl, rfl, fun a ha => ?_, fun z _ => ?_⟩
    · dsimp only
      field_simp
    · dsimp only
      rw [hz]
  · unfold fluids
    dsimp only
    rw [if_neg (not_lt.mpr hc)]
    refine ⟨_, rfl, rfl, fun _ => rfl, fun z _ => ?_⟩
    dsimp only
    rw [hz]
    exact ⟨rfl, rfl, rfl, rfl⟩

/-! ## The seeds -/

/-- C129: without a table the seed is made from the transfer function in the synchronous gauge, whatever the gauge of the cosmology is (with the exception of a gauge called
`synchronuous`, which does not exist). -/
theorem seed_gauge (c : Cosmology) (a0 : ℝ) (ha : a0 ≠ 0) (hg : c.gauge ≠ "synchronuous") : seed c a0 none = seed c a0 (some (c.transfer "synchronous" (1 / a0 - 1))) := by
  unfold seed
  dsimp only
  rw [if_neg ha, if_pos hg]
  rfl

/-- C129: the seed has one row for each wavenumber, and the rows are made one by one. -/
theorem seed_rows (c : Cosmology) (a0 : ℝ) (T : List Row) :
    ∃ q p, seed c a0 (some T) = .ok (T.map Row.k, q, p) ∧ q.length = T.length ∧ p.length = T.length ∧
      ∀ (j : Nat) (r : Row), T[j]? = some r → q[j]? = some (-r.d_cdm, -r.d_b, -r.d_ncdm) ∧
        p[j]? = some (r.h_prime * a0 / (2 * c.hubble0), r.t_b + r.h_prime * a0 / (2 * c.hubble0), r.t_ncdm + r.h_prime * a0 / (2 * c.hubble0)) := by
  refine ⟨_, _, rfl, by simp, by simp, ?_⟩
  intro j r hr
  rw [List.getElem?_map, List.getElem?_map, hr]
  refine ⟨rfl, ?_⟩
  have e : 1 / 2 * r.h_prime * a0 / c.hubble0 = r.h_prime * a0 / (2 * c.hubble0) := by rw [mul_comm 2 c.hubble0, ← div_div]; ring
  show some _ = _
  unfold seedRow
  beta_reduce
  rw [e]

/-- The equations of continuity in the synchronous gauge at one time, in the units of CLASS: `d' = -h'/2` for cold matter and `d' = -(theta + h'/2)` for the others, where the prime is the
derivative with respect to conformal time, `dlna = a H d(tau)`. -/
structure Continuity (a0 H : ℝ) (r : Row) (dc db dn : ℝ → ℝ) : Prop where
  cdm : HasDerivAt dc (-(r.h_prime / 2) / (a0 * H)) (Real.log a0)
  b : HasDerivAt db (-(r.t_b + r.h_prime / 2) / (a0 * H)) (Real.log a0)
  ncdm : HasDerivAt dn (-(r.t_ncdm + r.h_prime / 2) / (a0 * H)) (Real.log a0)

/-- C129: the momentum of cold matter in the seed is the one for which the displacement moves as in the synchronous gauge: `p = a^2 E dq/dlna`. -/
theorem seed_cdm (f : Fluids) (c : Cosmology) (a0 : ℝ) (ha : 0 < a0) (hH : c.hubble0 ≠ 0) (hE : f.efunc a0 ≠ 0) (k : ℝ) (r : Row) (dc db dn : ℝ → ℝ)
    (hc : Continuity a0 (c.hubble0 * f.efunc a0) r dc db dn) :
    HasDerivAt (fun x => -dc x) (f.rhs k (Real.log a0) (seedRow a0 c.hubble0 r).1 (seedRow a0 c.hubble0 r).2).1.1 (Real.log a0) := by
  refine hc.cdm.fun_neg.congr_deriv ?_
  simp only [Fluids.rhs, seedRow, Real.exp_log ha]
  field_simp

/-- C129: for baryons this is so only if their velocity divergence vanishes (or the scale factor happens to equal the Hubble constant): `t_b` is not multiplied by `a0 / H0`. -/
theorem seed_baryons_iff (f : Fluids) (c : Cosmology) (a0 : ℝ) (ha : 0 < a0) (hH : c.hubble0 ≠ 0) (hE : f.efunc a0 ≠ 0) (k : ℝ) (r : Row) (dc db dn : ℝ → ℝ)
    (hc : Continuity a0 (c.hubble0 * f.efunc a0) r dc db dn) :
    (HasDerivAt (fun x => -db x) (f.rhs k (Real.log a0) (seedRow a0 c.hubble0 r).1 (seedRow a0 c.hubble0 r).2).1.2.1 (Real.log a0) ↔ r.t_b = 0 ∨ a0 = c.hubble0) ∧
      (HasDerivAt (fun x => -dn x) (f.rhs k (Real.log a0) (seedRow a0 c.hubble0 r).1 (seedRow a0 c.hubble0 r).2).1.2.2 (Real.log a0) ↔ r.t_ncdm = 0 ∨ a0 = c.hubble0) := by
  have key : ∀ θ : ℝ, (θ + 1 / 2 * r.h_prime * a0 / c.hubble0) / a0 ^ 2 * (1 / f.efunc a0) = -(-(θ + r.h_prime / 2) / (a0 * (c.hubble0 * f.efunc a0))) ↔ θ = 0 ∨ a0 = c.hubble0 := by
    intro θ
    have h0 : a0 ≠ 0 := ha.ne'
    have e : (θ + 1 / 2 * r.h_prime * a0 / c.hubble0) / a0 ^ 2 * (1 / f.efunc a0) - -(-(θ + r.h_prime / 2) / (a0 * (c.hubble0 * f.efunc a0))) =
        θ * (c.hubble0 - a0) / (a0 ^ 2 * c.hubble0 * f.efunc a0) := by
      field_simp
      ring
    rw [← sub_eq_zero, e, div_eq_zero_iff, mul_eq_zero, sub_eq_zero]
    have hne : a0 ^ 2 * c.hubble0 * f.efunc a0 ≠ 0 := by positivity
    constructor
    · rintro ((h | h) | h)
      · exact Or.inl h
      · exact Or.inr h.symm
      · exact absurd h hne
    · rintro (h | h)
      · exact Or.inl (Or.inl h)
      · exact Or.inl (Or.inr h.symm)
  constructor
  · rw [← key r.t_b]
    simp only [Fluids.rhs, seedRow, Real.exp_log ha]
    exact ⟨fun h => h.unique hc.b.fun_neg, fun h => by rw [h]; exact hc.b.fun_neg⟩
  · rw [← key r.t_ncdm]
    simp only [Fluids.rhs, seedRow, Real.exp_log ha]
    exact ⟨fun h => h.unique hc.ncdm.fun_neg, fun h => by rw [h]; exact hc.ncdm.fun_neg⟩

/-! ## Concrete cases -/

/-- A case of the equations of continuity in which the baryons move: their seed is wrong. -/
theorem seed_baryons_wrong : ∃ (f : Fluids) (c : Cosmology) (r : Row) (dc db dn : ℝ → ℝ), Continuity (1 / 2) (c.hubble0 * f.efunc (1 / 2)) r dc db dn ∧
    ¬ HasDerivAt (fun x => -db x) (f.rhs 1 (Real.log (1 / 2)) (seedRow (1 / 2) c.hubble0 r).1 (seedRow (1 / 2) c.hubble0 r).2).1.2.1 (Real.log (1 / 2)) := by
  let f : Fluids := ⟨fun _ => 1, fun _ => 1, fun _ => 1, fun _ => 1, 0, fun _ => 0⟩
  let c : Cosmology := ⟨"synchronous", 1, fun _ _ => []⟩
  let r : Row := ⟨1, 1, 1, 1, 1, 1, 0⟩
  have hid : ∀ (m x : ℝ), HasDerivAt (fun t : ℝ => m * t) m x := fun m x => by simpa using (hasDerivAt_id x).const_mul m
  have hc : Continuity (1 / 2) (c.hubble0 * f.efunc (1 / 2)) r (fun t => (-(r.h_prime / 2) / (1 / 2 * (c.hubble0 * f.efunc (1 / 2)))) * t)
      (fun t => (-(r.t_b + r.h_prime / 2) / (1 / 2 * (c.hubble0 * f.efunc (1 / 2)))) * t)
      (fun t => (-(r.t_ncdm + r.h_prime / 2) / (1 / 2 * (c.hubble0 * f.efunc (1 / 2)))) * t) := ⟨hid _ _, hid _ _, hid _ _⟩
  refine ⟨f, c, r, _, _, _, hc, ?_⟩
  rw [(seed_baryons_iff f c (1 / 2) (by norm_num) one_ne_zero one_ne_zero 1 r _ _ _ hc).1]
  rintro (h | h)
  · exact one_ne_zero h
  · norm_num [c] at h

/-- A case of `integrate_spec`: two modes at two times; the solver returns a constant function. -/
example : let f : Fluids := ⟨fun _ => 1, fun _ => 0, fun _ => 0, fun _ => 0, 0, fun _ => 0⟩
    let q0 : List V3 := [(1, 2, 3), (4, 5, 6)]
    let p0 : List V3 := [(0, 0, 0), (0, 0, 0)]
    let solve : Solver := fun _ _ _ v ts => .ok (ts, sampled (fun _ => v) v.length ts)
    integrate solve f [1, 2] q0 p0 [1, 2] = .ok ([1, 2], [q0, q0], [p0, p0]) := by
  intro f q0 p0 solve
  refine integrate_spec solve f [1, 2] q0 p0 [1, 2] rfl (Or.inr rfl) 1 2 rfl rfl (fun _ => q0) (fun _ => p0) (fun _ => rfl) (fun _ => rfl) rfl ?_
  intro x hx
  simp only [List.mem_cons, List.not_mem_nil, or_false] at hx
  rcases hx with rfl | rfl <;> norm_num

/-- Solutions exist: nothing moves in an empty universe without pressure. -/
example (k : ℝ) : ModeOde ⟨fun _ => 1, fun _ => 0, fun _ => 0, fun _ => 0, 0, fun _ => 0⟩ k (fun _ => (1, 2, 3)) (fun _ => (0, 0, 0)) := by
  refine ⟨fun t => ?_, fun t => ?_, fun t => ?_, fun t => ?_, fun t => ?_, fun t => ?_⟩ <;>
    · refine (hasDerivAt_const t _).congr_deriv ?_
      simp [Fluids.rhs, Fluids.J]

end NBK.Nbody
