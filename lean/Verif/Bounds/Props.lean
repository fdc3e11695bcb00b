import Verif.Bounds.Lemmas

/-!
# C10, C11: rank factorisation and data bounds
-/
set_option linter.unusedSimpArgs false
namespace NBK.Bounds

/-- C10, the part that holds: three positive integers with product `s`, whatever the rounding of the floating
point starting values. Missing: the documented order `a <= b <= c`, which is false (next theorem). -/
theorem splitSize3d_partial (cbrt sqrt : Nat → Nat) (s : Nat) (hs : 0 < s) :
    let (a, b, c) := splitSize3d cbrt sqrt s
    a * b * c = s ∧ 0 < a ∧ 0 < b ∧ 0 < c := by
  obtain ⟨h1, h2, h3⟩ := countDown_spec s hs (cbrt s + 1) (by omega)
  obtain ⟨g1, g2, g3⟩ := countDown_spec _ h3 (sqrt (countDown s (cbrt s + 1)).2 + 1) (by omega)
  refine ⟨?_, h1, g1, g3⟩
  show (countDown s (cbrt s + 1)).1 * (countDown (countDown s (cbrt s + 1)).2 _).1
    * (countDown (countDown s (cbrt s + 1)).2 _).2 = s
  rw [Nat.mul_assoc, g2, h2]

/-- C10 fails as documented: with the exact integer roots, `split_size_3d(2) = (2, 1, 1)` and
`split_size_3d(6) = (2, 1, 3)`, so `a <= b` does not hold. -/
theorem splitSize3d_not_sorted (cbrt sqrt : Nat → Nat)
    (hc : ∀ n, cbrt n ^ 3 ≤ n ∧ n < (cbrt n + 1) ^ 3) (hq : ∀ n, sqrt n ^ 2 ≤ n ∧ n < (sqrt n + 1) ^ 2) :
    splitSize3d cbrt sqrt 2 = (2, 1, 1) ∧ splitSize3d cbrt sqrt 6 = (2, 1, 3) := by
  have root3 : ∀ n, 1 ≤ n → n < 8 → cbrt n = 1 := by
    intro n h1 h8
    obtain ⟨a, b⟩ := hc n
    match h : cbrt n with
    | 0 => rw [h] at b; simp at b; omega
    | 1 => rfl
    | k + 2 =>
      rw [h] at a
      have : 2 ^ 3 ≤ k.succ.succ ^ 3 := Nat.pow_le_pow_left (by omega) 3
      omega
  have root2 : ∀ n, 1 ≤ n → n < 4 → sqrt n = 1 := by
    intro n h1 h8
    obtain ⟨a, b⟩ := hq n
    match h : sqrt n with
    | 0 => rw [h] at b; simp at b; omega
    | 1 => rfl
    | k + 2 =>
      rw [h] at a
      have : 2 ^ 2 ≤ k.succ.succ ^ 2 := Nat.pow_le_pow_left (by omega) 2
      omega
  constructor
  · simp [splitSize3d, root3 2 (by omega) (by omega), countDown, root2 1 (by omega) (by omega)]
  · simp [splitSize3d, root3 6 (by omega) (by omega), countDown, root2 3 (by omega) (by omega)]

/-- Non-vacuity: exact integer roots exist. -/
example : ∃ cbrt sqrt : Nat → Nat, (∀ n, cbrt n ^ 3 ≤ n ∧ n < (cbrt n + 1) ^ 3) ∧
    (∀ n, sqrt n ^ 2 ≤ n ∧ n < (sqrt n + 1) ^ 2) := by
  have h : ∀ k, k ≠ 0 → ∀ n : Nat, ∃ r, r ^ k ≤ n ∧ n < (r + 1) ^ k := by
    intro k hk n
    induction n with
    | zero => exact ⟨0, by simp [hk]⟩
    | succ n ih =>
      obtain ⟨r, h1, h2⟩ := ih
      by_cases h : n + 1 < (r + 1) ^ k
      · exact ⟨r, by omega, h⟩
      · have : (r + 1) ^ k < (r + 1 + 1) ^ k := Nat.pow_lt_pow_left (by omega) hk
        exact ⟨r + 1, by omega, by omega⟩
  exact ⟨fun n => (h 3 (by omega) n).choose, fun n => (h 2 (by omega) n).choose,
    fun n => (h 3 (by omega) n).choose_spec, fun n => (h 2 (by omega) n).choose_spec⟩
/-- Non-vacuity of the product property: 12 ranks. -/
example : splitSize3d (fun _ => 2) (fun _ => 2) 12 = (3, 2, 2) := by rfl

/-- Specification: the selected rows of all ranks (one component). -/
def selected {α : Type} (D : List (List (α × Bool))) : List α := ((D.flatten).filter (·.2)).map (·.1)

theorem mem_selected {α : Type} (D : List (List (α × Bool))) (x : α) :
    x ∈ selected D ↔ ∃ d ∈ D, (x, true) ∈ d := by
  simp only [selected, List.mem_map, List.mem_filter, List.mem_flatten]
  constructor
  · rintro ⟨⟨y, b⟩, ⟨⟨d, hd, hy⟩, hb⟩, rfl⟩
    simp only at hb; subst hb; exact ⟨d, hd, hy⟩
  · rintro ⟨d, hd, hy⟩; exact ⟨(x, true), ⟨⟨d, hd, hy⟩, rfl⟩, rfl⟩

/-- Length of the longest local array. -/
def longest {α : Type} (D : List (List α)) : Nat := (D.map List.length).foldl max 0

/-- Specification of the situation in which the code works: on every rank that has rows, every chunk
`[k*c, (k+1)*c)` up to the length of the *longest* rank contains a selected row. -/
def EveryChunkSelected {α : Type} (c : Nat) (D : List (List (α × Bool))) : Prop :=
  ∀ d ∈ D, d ≠ [] → ∀ k, k * c < longest D →
    ∃ (j : Nat) (x : α), k * c ≤ j ∧ j < (k + 1) * c ∧ d[j]? = some (x, true)

theorem chunk_ne_nil {α : Type} (rows : List (α × Bool)) (k c : Nat) :
    chunk rows (k * c) c ≠ [] ↔ ∃ (j : Nat) (x : α), k * c ≤ j ∧ j < (k + 1) * c ∧ rows[j]? = some (x, true) := by
  rw [ne_eq, List.eq_nil_iff_forall_not_mem, not_forall]
  simp only [not_not]
  simp only [chunk, List.mem_map, List.mem_filter]
  rw [Nat.succ_mul]
  constructor
  · rintro ⟨x, ⟨y, b⟩, ⟨h, hb⟩, rfl⟩
    simp only at hb; subst hb
    obtain ⟨i, hi⟩ := List.mem_iff_getElem?.mp h
    rw [List.getElem?_take] at hi
    split at hi
    · rw [List.getElem?_drop] at hi
      exact ⟨k * c + i, y, by omega, by omega, hi⟩
    · cases hi
  · rintro ⟨j, x, h1, h2, h3⟩
    refine ⟨x, (x, true), ⟨?_, rfl⟩, rfl⟩
    rw [List.mem_iff_getElem?]
    refine ⟨j - k * c, ?_⟩
    rw [List.getElem?_take, if_pos (by omega), List.getElem?_drop, show k * c + (j - k * c) = j by omega, h3]

theorem mem_starts (n c i : Nat) (hc : 0 < c) : i ∈ starts n c ↔ ∃ k, k * c < n ∧ i = k * c := by
  simp only [starts, List.mem_map, List.mem_range]
  constructor
  · rintro ⟨k, hk, rfl⟩
    refine ⟨k, ?_, rfl⟩
    rw [Nat.lt_iff_add_one_le, Nat.le_div_iff_mul_le hc, Nat.succ_mul] at hk
    omega
  · rintro ⟨k, hk, rfl⟩
    refine ⟨k, ?_, rfl⟩
    rw [Nat.lt_iff_add_one_le, Nat.le_div_iff_mul_le hc, Nat.succ_mul]
    omega

theorem mapM_ok {β γ : Type} (f : β → Except Err γ) (l : List β) (h : ∀ x ∈ l, ∃ y, f x = .ok y) :
    ∃ ys, l.mapM f = .ok ys ∧ ys.length = l.length ∧ ∀ (i : Nat) (x : β) (y : γ), l[i]? = some x → ys[i]? = some y → f x = .ok y := by
  induction l with
  | nil => exact ⟨[], rfl, rfl, by simp⟩
  | cons x l ih =>
    obtain ⟨y, hy⟩ := h x (by simp)
    obtain ⟨ys, h1, h2, h3⟩ := ih (fun z hz => h z (by simp [hz]))
    refine ⟨y :: ys, by rw [List.mapM_cons, hy, h1]; rfl, by simp [h2], ?_⟩
    intro i a b ha hb
    cases i with
    | zero => simp at ha hb; subst ha hb; exact hy
    | succ i => simp at ha hb; exact h3 i a b ha hb

theorem mapM_err {β γ : Type} (f : β → Except Err γ) (l : List β) (h : ∃ x ∈ l, ∃ e, f x = .error e) :
    ∃ e, l.mapM f = .error e := by
  induction l with
  | nil => simp at h
  | cons x l ih =>
    rw [List.mapM_cons]
    cases hx : f x with
    | error e => exact ⟨e, rfl⟩
    | ok y =>
      obtain ⟨z, hz, e, hze⟩ := h
      rcases List.mem_cons.mp hz with rfl | hz
      · rw [hx] at hze; cases hze
      · obtain ⟨e, he⟩ := ih ⟨z, hz, e, hze⟩
        exact ⟨e, by rw [he]; rfl⟩

/-- C11, correctness: whenever the call returns, the results are the global minimum and maximum over the selected
rows of all ranks (`+inf`, `-inf` if no row is selected), for every chunk size and distribution. -/
theorem getDataBounds_extrema {α : Type} [LinearOrder α] (c : Nat) (hc : 0 < c) (D : List (List (α × Bool)))
    (m : WithTop α) (M : WithBot α) (h : getDataBounds c D = .ok (m, M)) :
    (∀ x ∈ selected D, m ≤ (x : WithTop α) ∧ (x : WithBot α) ≤ M) ∧
    (selected D = [] → m = ⊤ ∧ M = ⊥) ∧
    (selected D ≠ [] → (∃ x ∈ selected D, m = (x : WithTop α)) ∧ (∃ x ∈ selected D, M = (x : WithBot α))) := by
  unfold getDataBounds at h
  simp only [] at h
  have hlen : ∀ d ∈ D, d.length ≤ (D.map List.length).foldl max 0 := fun d hd =>
    (foldl_max_ge (D.map List.length) 0).2 _ (List.mem_map_of_mem hd)
  have hok : ∀ d ∈ D, ∃ y, rankLoop c d (starts ((D.map List.length).foldl max 0) c) (⊤, ⊥) = .ok y := by
    intro d hd
    by_contra hcon
    have : ∃ e, D.mapM (fun rows => rankLoop c rows (starts ((D.map List.length).foldl max 0) c) (⊤, ⊥)) = .error e := by
      apply mapM_err
      refine ⟨d, hd, ?_⟩
      cases hr : rankLoop c d (starts ((D.map List.length).foldl max 0) c) (⊤, ⊥) with
      | error e => exact ⟨e, rfl⟩
      | ok y => exact absurd ⟨y, hr⟩ hcon
    obtain ⟨e, he⟩ := this
    rw [he] at h; cases h
  obtain ⟨rs, hrs, hl, hget⟩ := mapM_ok _ D hok
  rw [hrs] at h
  have hpair : (m, M) = ((rs.map (·.1)).foldl min ⊤, (rs.map (·.2)).foldl max ⊥) := by
    cases h; rfl
  have hrank : ∀ (i : Nat) d p, D[i]? = some d → rs[i]? = some p →
      IsMin p.1 (selected [d]) ∧ IsMax p.2 (selected [d]) := by
    intro i d p hd hp
    have hr := hget i d p hd hp
    have hdD : d ∈ D := List.mem_of_getElem? hd
    by_cases hne : d = []
    · subst hne
      rw [rankLoop_empty] at hr
      cases hr
      exact ⟨isMin_nil, isMax_nil⟩
    · have hall : ∀ i ∈ starts ((D.map List.length).foldl max 0) c, chunk d i c ≠ [] := by
        intro j hj he
        rw [rankLoop_error c d hne j _ hj he] at hr; cases hr
      obtain ⟨q, hq, h1, h2⟩ := rankLoop_spec c d hne _ (⊤, ⊥) [] isMin_nil isMax_nil hall
      rw [hr] at hq; cases hq
      have hm : ∀ x, x ∈ [] ++ (starts ((D.map List.length).foldl max 0) c).flatMap (chunk d · c) ↔ x ∈ selected [d] := by
        intro x
        rw [List.nil_append, mem_chunks c _ hc d (hlen d hdD), mem_selected]
        simp
      exact ⟨isMin_perm h1 hm, isMax_perm h2 hm⟩
  have hall : ∀ (E : List (List (α × Bool))) (qs : List (WithTop α × WithBot α)), qs.length = E.length →
      (∀ (i : Nat) d p, E[i]? = some d → qs[i]? = some p → IsMin p.1 (selected [d]) ∧ IsMax p.2 (selected [d])) →
      ∀ (u : WithTop α) (v : WithBot α) seen, IsMin u seen → IsMax v seen →
      IsMin ((qs.map (·.1)).foldl min u) (seen ++ selected E) ∧ IsMax ((qs.map (·.2)).foldl max v) (seen ++ selected E) := by
    intro E
    induction E with
    | nil =>
      intro qs hq _ u v seen hu hv
      have : qs = [] := by simpa using hq
      subst this
      simpa [selected] using ⟨hu, hv⟩
    | cons d E ih =>
      intro qs hq hp u v seen hu hv
      cases qs with
      | nil => simp at hq
      | cons p qs =>
        have h0 := hp 0 d p rfl rfl
        have := ih qs (by simpa using hq) (fun i d' p' h1 h2 => hp (i + 1) d' p' (by simpa using h1) (by simpa using h2))
          (min u p.1) (max v p.2) (seen ++ selected [d]) (hu.append h0.1) (hv.append h0.2)
        have e : selected (d :: E) = selected [d] ++ selected E := by simp [selected]
        rw [e, ← List.append_assoc]
        exact this
  obtain ⟨hmin, hmax⟩ := hall D rs hl hrank ⊤ ⊥ [] isMin_nil isMax_nil
  rw [List.nil_append] at hmin hmax
  have em : m = (rs.map (·.1)).foldl min ⊤ := congrArg Prod.fst hpair
  have eM : M = (rs.map (·.2)).foldl max ⊥ := congrArg Prod.snd hpair
  rw [← em] at hmin
  rw [← eM] at hmax
  exact ⟨fun x hx => ⟨hmin.1 x hx, hmax.1 x hx⟩, fun e => ⟨hmin.2.1 e, hmax.2.1 e⟩,
    fun e => ⟨hmin.2.2 e, hmax.2.2 e⟩⟩

/-- C11, exactly when the call succeeds. The English property (no failure while at least one row is selected)
does not hold; what holds is this stronger precondition. -/
theorem getDataBounds_ok_iff_partial {α : Type} [LinearOrder α] (c : Nat) (hc : 0 < c) (D : List (List (α × Bool))) :
    (∃ p, getDataBounds c D = .ok p) ↔ EveryChunkSelected c D := by
  unfold getDataBounds EveryChunkSelected longest
  simp only []
  constructor
  · rintro ⟨p, hp⟩ d hd hne k hk
    rw [← chunk_ne_nil]
    intro he
    have : ∃ e, D.mapM (fun rows => rankLoop c rows (starts ((D.map List.length).foldl max 0) c) (⊤, ⊥)) = .error e := by
      apply mapM_err
      exact ⟨d, hd, _, rankLoop_error c d hne (k * c) _ ((mem_starts _ _ _ hc).mpr ⟨k, hk, rfl⟩) he _⟩
    obtain ⟨e, he⟩ := this
    rw [he] at hp; cases hp
  · intro h
    have hok : ∀ d ∈ D, ∃ y, rankLoop c d (starts ((D.map List.length).foldl max 0) c) (⊤, ⊥) = .ok y := by
      intro d hd
      by_cases hne : d = []
      · subst hne; exact ⟨_, rankLoop_empty c _ _⟩
      · obtain ⟨q, hq, -⟩ := rankLoop_spec c d hne _ (⊤, ⊥) [] isMin_nil isMax_nil (by
          intro i hi
          obtain ⟨k, hk, rfl⟩ := (mem_starts _ _ _ hc).mp hi
          rw [chunk_ne_nil]; exact h d hd hne k hk)
        exact ⟨q, hq⟩
    obtain ⟨rs, hrs, -⟩ := mapM_ok _ D hok
    rw [hrs]; exact ⟨_, rfl⟩

/-- C11 fails as stated: (1) two ranks, the only row of the second is not selected; (2) no selection at all, but one
rank is longer than a chunk and another is shorter. In both cases rows are selected and the call raises. -/
theorem getDataBounds_fails :
    (selected [[((5 : Nat), true)], [(7, false)]] ≠ [] ∧
      getDataBounds 10 [[((5 : Nat), true)], [(7, false)]] = .error .valueError) ∧
    getDataBounds 2 [[((5 : Nat), true), (6, true), (7, true)], [(8, true)]] = .error .valueError := by
  refine ⟨⟨by simp [selected], by rfl⟩, by rfl⟩

/-- Non-vacuity: selections, an empty rank, two chunks. -/
example : getDataBounds 2 [[((5 : Nat), true), (6, false), (3, true)], [], [(4, true), (1, false), (8, true), (0, false)]]
    = .ok ((3 : Nat), (8 : Nat)) := by rfl
example : EveryChunkSelected 2 [[((5 : Nat), true), (6, false), (3, true)], [], [(4, true), (1, false), (8, true), (0, false)]] := by
  rw [← getDataBounds_ok_iff_partial 2 (by omega)]
  exact ⟨((3 : Nat), (8 : Nat)), by rfl⟩

end NBK.Bounds
