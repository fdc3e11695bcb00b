import Verif.Uedges.Model
import Mathlib.Analysis.Real.Sqrt
import Mathlib.Data.Rat.Floor
import Mathlib.Data.Rat.Sqrt
import Mathlib.Algebra.Order.Ring.Rat
import Mathlib.Data.List.GetD
import Mathlib.Tactic.Linarith
import Mathlib.Tactic.Positivity
import Mathlib.Tactic.FieldSimp
import Mathlib.Tactic.Ring

/-! # The bins around the unique values of the coordinate -/

set_option linter.unusedSimpArgs false

namespace NBK.Uedges

variable {K : Type} [Field K] [LinearOrder K] [IsStrictOrderedRing K] [FloorRing K]

omit [IsStrictOrderedRing K] in
theorem firsts_inv (b : K) (xs acc : List K) (hacc : (acc.map (key b)).Nodup) :
    let r := xs.foldl (fun acc a => if acc.any (fun c => key b c = key b a) then acc else acc ++ [a]) acc
    (r.map (key b)).Nodup ∧ (∀ a ∈ r, a ∈ acc ∨ a ∈ xs) ∧ (∀ a, a ∈ acc ∨ a ∈ xs → ∃ c ∈ r, key b c = key b a) ∧ ∀ a ∈ acc, a ∈ r := by
  induction xs generalizing acc with
  | nil =>
    refine ⟨hacc, fun a h => .inl h, fun a h => ⟨a, ?_, rfl⟩, fun a h => h⟩
    rcases h with h | h
    · exact h
    · simp at h
  | cons x xs ih =>
    simp only [List.foldl_cons]
    by_cases h : acc.any (fun c => key b c = key b x)
    · rw [if_pos h]
      obtain ⟨h1, h2, h3, h4⟩ := ih acc hacc
      refine ⟨h1, fun a ha => ?_, fun a ha => ?_, h4⟩
      · rcases h2 a ha with h | h
        · exact .inl h
        · exact .inr (List.mem_cons_of_mem _ h)
      · rcases ha with ha | ha
        · exact h3 a (.inl ha)
        · rcases List.mem_cons.mp ha with rfl | ha
          · obtain ⟨c, hc, hk⟩ := List.any_eq_true.mp h
            exact ⟨c, h4 c hc, by simpa using hk⟩
          · exact h3 a (.inr ha)
    · rw [if_neg h]
      have hn : ((acc ++ [x]).map (key b)).Nodup := by
        rw [List.map_append, List.nodup_append]
        refine ⟨hacc, by simp, ?_⟩
        intro k hk k' hk'
        simp only [List.map_cons, List.map_nil, List.mem_singleton] at hk'
        obtain ⟨c, hc, rfl⟩ := List.mem_map.mp hk
        subst hk'
        intro he
        apply h
        rw [List.any_eq_true]
        exact ⟨c, hc, by simpa using he⟩
      obtain ⟨h1, h2, h3, h4⟩ := ih (acc ++ [x]) hn
      refine ⟨h1, fun a ha => ?_, fun a ha => ?_, fun a ha => h4 a (List.mem_append_left _ ha)⟩
      · rcases h2 a ha with h | h
        · rcases List.mem_append.mp h with h | h
          · exact .inl h
          · simp only [List.mem_singleton] at h
            subst h
            exact .inr (List.mem_cons_self ..)
        · exact .inr (List.mem_cons_of_mem _ h)
      · rcases ha with ha | ha
        · exact h3 a (.inl (List.mem_append_left _ ha))
        · rcases List.mem_cons.mp ha with rfl | ha
          · exact h3 a (.inl (by simp))
          · exact h3 a (.inr ha)

omit [IsStrictOrderedRing K] in
/-- `find_unique_local` in general: some of the values, one for each key, in the order of the keys. -/
theorem uniqueLocal_spec (b : K) (xs : List K) :
    (uniqueLocal b xs).Pairwise (fun x y => key b x < key b y) ∧ (∀ a ∈ uniqueLocal b xs, a ∈ xs) ∧
    ∀ a ∈ xs, ∃ c ∈ uniqueLocal b xs, key b c = key b a := by
  obtain ⟨h1, h2, h3, _⟩ := firsts_inv b xs [] (by simp)
  have hperm := List.perm_insertionSort (fun a c : K => key b a ≤ key b c) (firsts b xs)
  haveI : Std.Total (fun a c : K => key b a ≤ key b c) := ⟨fun a c => le_total _ _⟩
  haveI : IsTrans K (fun a c : K => key b a ≤ key b c) := ⟨fun a c d => le_trans⟩
  have hs := List.pairwise_insertionSort (fun a c : K => key b a ≤ key b c) (firsts b xs)
  have hn : ((uniqueLocal b xs).map (key b)).Nodup := (hperm.map (key b)).nodup_iff.mpr h1
  refine ⟨?_, fun a ha => ?_, fun a ha => ?_⟩
  · have hn' : (uniqueLocal b xs).Pairwise (fun x y => key b x ≠ key b y) := List.pairwise_map.mp hn
    exact (hs.and hn').imp fun h => lt_of_le_of_ne h.1 h.2
  · rcases h2 a (hperm.mem_iff.mp ha) with h | h
    · simp at h
    · exact h
  · obtain ⟨c, hc, hk⟩ := h3 a (.inr ha)
    exact ⟨c, hperm.mem_iff.mpr hc, hk⟩

theorem key_mono (b : K) (hb : 0 < b) {x y : K} (h : x ≤ y) : key b x ≤ key b y := by
  unfold key
  apply Int.floor_le_floor
  have := div_le_div_of_nonneg_right h hb.le
  linarith

theorem key_sep (b : K) (hb : 0 < b) {x y : K} (h : b ≤ y - x) : key b x < key b y := by
  have h1 : x / b + 1 / 2 + 1 ≤ y / b + 1 / 2 := by
    have : 1 ≤ (y - x) / b := (one_le_div hb).mpr h
    rw [sub_div] at this
    linarith
  have h2 : ⌊x / b + 1 / 2⌋ + 1 ≤ ⌊y / b + 1 / 2⌋ := by
    rw [← Int.floor_add_one]
    exact Int.floor_le_floor h1
  unfold key
  omega

/-- Values that are equal or at least a bin apart: the result is the increasing list of the distinct values. -/
theorem uniqueLocal_exact (b : K) (hb : 0 < b) (xs : List K) (hsep : ∀ x ∈ xs, ∀ y ∈ xs, x < y → b ≤ y - x) :
    (uniqueLocal b xs).Pairwise (· < ·) ∧ ∀ a, a ∈ uniqueLocal b xs ↔ a ∈ xs := by
  obtain ⟨h1, h2, h3⟩ := uniqueLocal_spec b xs
  refine ⟨h1.imp fun {x y} h => ?_, fun a => ⟨h2 a, fun ha => ?_⟩⟩
  · by_contra hc
    exact absurd (key_mono b hb (not_lt.mp hc)) (by omega)
  · obtain ⟨c, hc, hk⟩ := h3 a ha
    rcases lt_trichotomy c a with h | h | h
    · have := key_sep b hb (hsep c (h2 c hc) a ha h)
      omega
    · exact h ▸ hc
    · have := key_sep b hb (hsep a ha c (h2 c hc) h)
      omega

/-- **C88 (partial).** If different values of the squared coordinate are at least `(x0/20)²` apart and their roots at least `x0/10⁵`, the centers are the
distinct values of the coordinate below `xmax` in increasing order, each once. -/
theorem centers_partial (root : K → K) (x0 xmax : K) (hx0 : 0 < x0) (ranks : List (List K))
    (hsq : ∀ x ∈ ranks.flatten, ∀ y ∈ ranks.flatten, x < y → (x0 * (1 / 20)) ^ 2 ≤ y - x)
    (hroot : ∀ x ∈ ranks.flatten, ∀ y ∈ ranks.flatten, root x < root y → x0 * (1 / 100000) ≤ root y - root x) :
    (centers root x0 xmax ranks).Pairwise (· < ·) ∧
    ∀ f, f ∈ centers root x0 xmax ranks ↔ f < xmax ∧ ∃ a ∈ ranks.flatten, root a = f := by
  have hb1 : 0 < (x0 * (1 / 20)) ^ 2 := by positivity
  have hb2 : 0 < x0 * (1 / 100000) := by positivity
  have hmem : ∀ f, f ∈ (ranks.map fun fx2 => ((uniqueLocal ((x0 * (1 / 20)) ^ 2) fx2).map root).filter fun f => decide (f < xmax)).flatten ↔
      f < xmax ∧ ∃ a ∈ ranks.flatten, root a = f := by
    intro f
    simp only [List.mem_flatten, List.mem_map, exists_exists_and_eq_and, List.mem_filter, decide_eq_true_eq]
    constructor
    · rintro ⟨l, hl, ⟨a, ha, rfl⟩, hf⟩
      exact ⟨hf, a, ⟨l, hl, (uniqueLocal_spec _ l).2.1 a ha⟩, rfl⟩
    · rintro ⟨hf, a, ⟨l, hl, ha⟩, rfl⟩
      refine ⟨l, hl, ⟨a, ?_, rfl⟩, hf⟩
      refine ((uniqueLocal_exact _ hb1 l ?_).2 a).mpr ha
      intro x hx y hy hxy
      exact hsq x (List.mem_flatten.mpr ⟨l, hl, hx⟩) y (List.mem_flatten.mpr ⟨l, hl, hy⟩) hxy
  have h := uniqueLocal_exact (x0 * (1 / 100000)) hb2
    (ranks.map fun fx2 => ((uniqueLocal ((x0 * (1 / 20)) ^ 2) fx2).map root).filter fun f => decide (f < xmax)).flatten (by
      intro x hx y hy hxy
      obtain ⟨_, a, ha, rfl⟩ := (hmem x).mp hx
      obtain ⟨_, c, hc, rfl⟩ := (hmem y).mp hy
      exact hroot a ha c hc hxy)
  exact ⟨h.1, fun f => (h.2 f).trans (hmem f)⟩

/-- An increasing list is determined by its members. -/
theorem sorted_unique {l l' : List K} (h : l.Pairwise (· < ·)) (h' : l'.Pairwise (· < ·)) (hm : ∀ a, a ∈ l ↔ a ∈ l') : l = l' := by
  have hn : l.Nodup := h.imp fun h => h.ne
  have hn' : l'.Nodup := h'.imp fun h => h.ne
  exact List.Perm.eq_of_pairwise (fun a b _ _ hab hba => absurd hab (not_lt.mpr hba.le)) h h' ((List.perm_ext_iff_of_nodup hn hn').mpr hm)

/-- **C88 (partial).** Under the same hypotheses the edges and centers do not depend on the number of ranks and on the distribution of the modes. -/
theorem ranks_partial (root : K → K) (x0 xmax : K) (hx0 : 0 < x0) (ranks ranks' : List (List K)) (hp : ∀ a, a ∈ ranks.flatten ↔ a ∈ ranks'.flatten)
    (hsq : ∀ x ∈ ranks.flatten, ∀ y ∈ ranks.flatten, x < y → (x0 * (1 / 20)) ^ 2 ≤ y - x)
    (hroot : ∀ x ∈ ranks.flatten, ∀ y ∈ ranks.flatten, root x < root y → x0 * (1 / 100000) ≤ root y - root x) :
    findUniqueEdges root x0 xmax ranks' = findUniqueEdges root x0 xmax ranks := by
  obtain ⟨h1, h2⟩ := centers_partial root x0 xmax hx0 ranks hsq hroot
  obtain ⟨h1', h2'⟩ := centers_partial root x0 xmax hx0 ranks' (fun x hx y hy => hsq x ((hp x).mpr hx) y ((hp y).mpr hy))
    (fun x hx y hy => hroot x ((hp x).mpr hx) y ((hp y).mpr hy))
  have : centers root x0 xmax ranks' = centers root x0 xmax ranks := by
    apply sorted_unique h1' h1
    intro a
    rw [h2, h2']
    simp only [hp]
  unfold findUniqueEdges
  simp only [this]

omit [FloorRing K] in
theorem edges_inv (x a b : K) (l : List K) (hx : x ≤ a) (hs : (a :: b :: l).Pairwise (· < ·)) :
    let e := x :: midpoints a (b :: l) ++ [lastEdge a b l]
    e.length = l.length + 3 ∧ e.Pairwise (· < ·) ∧
    ∀ i < l.length + 2, e.getD i 0 ≤ (a :: b :: l).getD i 0 ∧ (a :: b :: l).getD i 0 < e.getD (i + 1) 0 := by
  induction l generalizing x a b with
  | nil =>
    have hab : a < b := by simpa using hs
    refine ⟨rfl, ?_, ?_⟩
    · simp only [midpoints, lastEdge, List.cons_append, List.nil_append, List.pairwise_cons, List.mem_cons, List.not_mem_nil, or_false,
        forall_eq_or_imp, forall_eq, List.Pairwise.nil, and_true, false_implies, implies_true]
      refine ⟨⟨by linarith, by linarith⟩, by linarith⟩
    · intro i hi
      have : i = 0 ∨ i = 1 := by simp at hi; omega
      rcases this with rfl | rfl
      · simp only [midpoints, List.cons_append, List.getD_cons_zero, List.getD_cons_succ]
        exact ⟨hx, by linarith⟩
      · simp only [midpoints, lastEdge, List.cons_append, List.nil_append, List.getD_cons_zero, List.getD_cons_succ]
        exact ⟨by linarith, by linarith⟩
  | cons c l ih =>
    have hab : a < b := (List.pairwise_cons.mp hs).1 b (List.mem_cons_self ..)
    obtain ⟨h1, h2, h3⟩ := ih (b - (b - a) * (1 / 2)) b c (by linarith) (List.pairwise_cons.mp hs).2
    have he : x :: midpoints a (b :: c :: l) ++ [lastEdge a b (c :: l)] =
        x :: ((b - (b - a) * (1 / 2)) :: midpoints b (c :: l) ++ [lastEdge b c l]) := rfl
    rw [he]
    refine ⟨by rw [List.length_cons, h1]; rfl, ?_, ?_⟩
    · rw [List.pairwise_cons]
      refine ⟨fun y hy => ?_, h2⟩
      have hxm : x < b - (b - a) * (1 / 2) := by linarith
      rw [List.cons_append] at hy h2
      rcases List.mem_cons.mp hy with rfl | hy
      · exact hxm
      · exact hxm.trans ((List.pairwise_cons.mp h2).1 y hy)
    · intro i hi
      cases i with
      | zero =>
        simp only [List.cons_append, List.getD_cons_zero, List.getD_cons_succ]
        exact ⟨hx, by linarith⟩
      | succ i =>
        have := h3 i (by simp at hi; omega)
        simpa only [List.getD_cons_succ] using this

omit [FloorRing K] in
/-- **C88.** For increasing centers (at least two, not negative) there is one more edge than centers, the edges increase from 0, and each center lies in its
own bin. -/
theorem edges_spec (fx : List K) (hs : fx.Pairwise (· < ·)) (h0 : ∀ f ∈ fx, 0 ≤ f) (h2 : 2 ≤ fx.length) :
    ∃ e, edgesOf fx = .ok e ∧ e.length = fx.length + 1 ∧ e.getD 0 1 = 0 ∧ e.Pairwise (· < ·) ∧
      ∀ i < fx.length, e.getD i 0 ≤ fx.getD i 0 ∧ fx.getD i 0 < e.getD (i + 1) 0 := by
  match fx, h2 with
  | a :: b :: l, _ =>
    obtain ⟨h1, h2, h3⟩ := edges_inv 0 a b l (h0 a (List.mem_cons_self ..)) hs
    exact ⟨_, rfl, by rw [h1]; simp, rfl, h2, fun i hi => h3 i (by simp only [List.length_cons] at hi; omega)⟩

omit [IsStrictOrderedRing K] in
/-- **C88.** With less than two values below `xmax` there is an IndexError. -/
theorem few (root : K → K) (x0 xmax : K) (ranks : List (List K)) :
    findUniqueEdges root x0 xmax ranks = .error .indexError ↔ (centers root x0 xmax ranks).length < 2 := by
  unfold findUniqueEdges
  match h : centers root x0 xmax ranks with
  | [] => simp [edgesOf, Except.map]
  | [a] => simp [edgesOf, Except.map]
  | a :: b :: l => simp [edgesOf, Except.map]

omit [Field K] [IsStrictOrderedRing K] [FloorRing K] in
/-- Bins of increasing edges do not overlap. -/
theorem bins_disjoint (d : K) (e : List K) (he : e.Pairwise (· < ·)) (v : K) (i j : Nat) (hi : i + 1 < e.length) (hj : j + 1 < e.length)
    (h1 : e.getD i d ≤ v) (h2 : v < e.getD (i + 1) d) (h3 : e.getD j d ≤ v) (h4 : v < e.getD (j + 1) d) : i = j := by
  have mono : ∀ a b, a ≤ b → b < e.length → e.getD a d ≤ e.getD b d := by
    intro a b hab hb
    rcases Nat.lt_or_eq_of_le hab with h | rfl
    · have := List.pairwise_iff_getElem.mp he a b (by omega) hb h
      rw [List.getD_eq_getElem _ _ (by omega), List.getD_eq_getElem _ _ hb]
      exact this.le
    · exact le_refl _
  rcases Nat.lt_trichotomy i j with h | h | h
  · exact absurd (h2.trans_le ((mono (i + 1) j h (by omega)).trans h3)) (lt_irrefl _)
  · exact h
  · exact absurd (h4.trans_le ((mono (j + 1) i h (by omega)).trans h1)) (lt_irrefl _)

/-- **C88 (partial).** Under the hypotheses of `centers_partial`: every value of the coordinate below `xmax` is in exactly one bin, and all values below `xmax` in
a bin are equal, the center of the bin. Missing (false): values from `xmax` on are in no bin. -/
theorem one_value_partial (root : K → K) (x0 xmax : K) (hx0 : 0 < x0) (ranks : List (List K))
    (hsq : ∀ x ∈ ranks.flatten, ∀ y ∈ ranks.flatten, x < y → (x0 * (1 / 20)) ^ 2 ≤ y - x)
    (hroot : ∀ x ∈ ranks.flatten, ∀ y ∈ ranks.flatten, root x < root y → x0 * (1 / 100000) ≤ root y - root x)
    (hnn : ∀ x ∈ ranks.flatten, 0 ≤ root x) (e fx : List K) (h : findUniqueEdges root x0 xmax ranks = .ok (e, fx)) :
    e.length = fx.length + 1 ∧ e.Pairwise (· < ·) ∧
    (∀ x ∈ ranks.flatten, root x < xmax → ∃ i < fx.length, e.getD i 0 ≤ root x ∧ root x < e.getD (i + 1) 0) ∧
    ∀ x ∈ ranks.flatten, root x < xmax → ∀ i < fx.length, e.getD i 0 ≤ root x → root x < e.getD (i + 1) 0 → fx.getD i 0 = root x := by
  obtain ⟨h1, h2⟩ := centers_partial root x0 xmax hx0 ranks hsq hroot
  have hlen : ¬ (centers root x0 xmax ranks).length < 2 := by
    rw [← few, h]
    simp
  obtain ⟨e', he, hl, _, hp, hb⟩ := edges_spec _ h1 (fun f hf => by
    obtain ⟨_, a, ha, rfl⟩ := (h2 f).mp hf
    exact hnn a ha) (by omega)
  unfold findUniqueEdges at h
  simp only [he, Except.map, Except.ok.injEq, Prod.mk.injEq] at h
  obtain ⟨rfl, rfl⟩ := h
  have hex : ∀ x ∈ ranks.flatten, root x < xmax → ∃ i < (centers root x0 xmax ranks).length, (centers root x0 xmax ranks).getD i 0 = root x := by
    intro x hx hm
    obtain ⟨i, hi, he⟩ := List.getElem_of_mem ((h2 (root x)).mpr ⟨hm, x, hx, rfl⟩)
    exact ⟨i, hi, by rw [List.getD_eq_getElem _ _ hi, he]⟩
  refine ⟨hl, hp, fun x hx hm => ?_, fun x hx hm i hi ha hc => ?_⟩
  · obtain ⟨i, hi, hv⟩ := hex x hx hm
    exact ⟨i, hi, hv ▸ hb i hi⟩
  · obtain ⟨j, hj, hv⟩ := hex x hx hm
    have hbj := hb j hj
    rw [hv] at hbj
    have := bins_disjoint 0 _ hp (root x) i j (by omega) (by omega) ha hc hbj.1 hbj.2
    rw [this, hv]

/-! ## Cubes -/

/-- **C88.** In a cube the squares are multiples of `x0²` and the hypotheses hold, up to `10⁹ x0²`. -/
theorem cube_separated (x0 : ℝ) (hx0 : 0 < x0) (l : List ℝ) (h : ∀ a ∈ l, ∃ n : ℕ, n ≤ 10 ^ 9 ∧ a = x0 ^ 2 * n) :
    (∀ x ∈ l, ∀ y ∈ l, x < y → (x0 * (1 / 20)) ^ 2 ≤ y - x) ∧
    ∀ x ∈ l, ∀ y ∈ l, Real.sqrt x < Real.sqrt y → x0 * (1 / 100000) ≤ Real.sqrt y - Real.sqrt x := by
  have hsq : 0 < x0 ^ 2 := by positivity
  have key : ∀ x ∈ l, ∀ y ∈ l, x < y → x0 ^ 2 ≤ y - x := by
    intro x hx y hy hxy
    obtain ⟨n, _, rfl⟩ := h x hx
    obtain ⟨m, _, rfl⟩ := h y hy
    have : (n : ℝ) < m := lt_of_mul_lt_mul_left hxy hsq.le
    have : n + 1 ≤ m := by exact_mod_cast this
    have : (n : ℝ) + 1 ≤ m := by exact_mod_cast this
    nlinarith
  refine ⟨fun x hx y hy hxy => ?_, fun x hx y hy hxy => ?_⟩
  · have := key x hx y hy hxy
    nlinarith
  · have hlt : x < y := by
      by_contra hc
      exact absurd (Real.sqrt_le_sqrt (not_lt.mp hc)) (not_le.mpr hxy)
    have hk := key x hx y hy hlt
    have hbound : ∀ z ∈ l, Real.sqrt z ≤ x0 * 40000 := by
      intro z hz
      obtain ⟨n, hn, rfl⟩ := h z hz
      rw [Real.sqrt_le_left (by positivity)]
      have : (n : ℝ) ≤ 10 ^ 9 := by exact_mod_cast hn
      nlinarith
    have hx0' : 0 ≤ x := by
      obtain ⟨n, _, rfl⟩ := h x hx
      positivity
    have hy0' : 0 ≤ y := by linarith
    have e : y - x = (Real.sqrt y - Real.sqrt x) * (Real.sqrt y + Real.sqrt x) := by
      have h1 := Real.sq_sqrt hx0'
      have h2 := Real.sq_sqrt hy0'
      nlinarith
    have hb1 := hbound x hx
    have hb2 := hbound y hy
    by_contra hc
    push Not at hc
    have : (Real.sqrt y - Real.sqrt x) * (Real.sqrt y + Real.sqrt x) ≤ (x0 * (1 / 100000)) * (x0 * 80000) := by
      apply mul_le_mul hc.le (by linarith) (by positivity) (by positivity)
    nlinarith

/-- **C88.** So in a cube, with all `|k|² ≤ 10⁹ k0²`, the bins do not depend on the ranks. -/
theorem cube_ranks (x0 xmax : ℝ) (hx0 : 0 < x0) (ranks ranks' : List (List ℝ)) (hp : ∀ a, a ∈ ranks.flatten ↔ a ∈ ranks'.flatten)
    (h : ∀ a ∈ ranks.flatten, ∃ n : ℕ, n ≤ 10 ^ 9 ∧ a = x0 ^ 2 * n) :
    findUniqueEdges Real.sqrt x0 xmax ranks' = findUniqueEdges Real.sqrt x0 xmax ranks :=
  ranks_partial Real.sqrt x0 xmax hx0 ranks ranks' hp (cube_separated x0 hx0 _ h).1 (cube_separated x0 hx0 _ h).2

/-- The squares of the modes of a cube with six cells a side, in units of the fundamental mode. -/
def squares6 : List ℕ := [0, 1, 4, 9].flatMap fun x => [0, 1, 4, 9].flatMap fun y => [0, 1, 4, 9].map fun z => x + y + z

/-- **C88 does not hold.** For a cube of six cells a side and the default limit, the Nyquist frequency 3, the last bin is that of the modes with `|k|² = 8`, but its
upper edge is above 3: the modes with `|k| = 3` are counted in it. -/
theorem beyond_counted : ∃ e fx, findUniqueEdges Real.sqrt 1 3 [squares6.map (fun n : ℕ => (n : ℝ))] = .ok (e, fx) ∧
    fx.length = 8 ∧ fx.getD 7 0 = Real.sqrt 8 ∧ e.getD 7 0 ≤ Real.sqrt 8 ∧ (3 : ℝ) < e.getD 8 0 ∧ e.length = 9 := by
  have hs : ∀ a ∈ [squares6.map (fun n : ℕ => (n : ℝ))].flatten, ∃ n : ℕ, n ≤ 10 ^ 9 ∧ a = (1 : ℝ) ^ 2 * n := by
    intro a ha
    simp only [List.flatten_cons, List.flatten_nil, List.append_nil, List.mem_map] at ha
    obtain ⟨n, hn, rfl⟩ := ha
    refine ⟨n, ?_, by simp⟩
    have : ∀ n ∈ squares6, n ≤ 27 := by decide
    have := this n hn
    omega
  have hsep := cube_separated 1 (by norm_num) _ hs
  obtain ⟨h1, h2⟩ := centers_partial Real.sqrt 1 3 (by norm_num) _ hsep.1 hsep.2
  have hlt : ∀ a b : ℝ, 0 ≤ a → a < b → Real.sqrt a < Real.sqrt b := fun a b ha hab => Real.sqrt_lt_sqrt ha hab
  have h3 : Real.sqrt 9 = 3 := by
    rw [show (9 : ℝ) = 3 ^ 2 by norm_num, Real.sqrt_sq (by norm_num)]
  have hc : centers Real.sqrt 1 3 [squares6.map (fun n : ℕ => (n : ℝ))] = ([0, 1, 2, 3, 4, 5, 6, 8] : List ℕ).map fun n : ℕ => Real.sqrt n := by
    apply sorted_unique h1
    · rw [List.pairwise_map]
      have : ([0, 1, 2, 3, 4, 5, 6, 8] : List ℕ).Pairwise (· < ·) := by decide
      exact this.imp fun {a b : ℕ} h => hlt (a : ℝ) (b : ℝ) (Nat.cast_nonneg a) (by exact_mod_cast h)
    · intro f
      rw [h2]
      simp only [List.flatten_cons, List.flatten_nil, List.append_nil, List.mem_map, exists_exists_and_eq_and]
      constructor
      · rintro ⟨hf, n, hn, rfl⟩
        refine ⟨n, ?_, rfl⟩
        have h9 : n < 9 := by
          rw [← h3] at hf
          have := (Real.sqrt_lt_sqrt_iff (by positivity : (0 : ℝ) ≤ n)).mp hf
          exact_mod_cast this
        have : ∀ n ∈ squares6, n < 9 → n ∈ ([0, 1, 2, 3, 4, 5, 6, 8] : List ℕ) := by decide
        exact this n hn h9
      · rintro ⟨n, hn, rfl⟩
        have h9 : ∀ n ∈ ([0, 1, 2, 3, 4, 5, 6, 8] : List ℕ), n < 9 ∧ n ∈ squares6 := by decide
        refine ⟨?_, n, (h9 n hn).2, rfl⟩
        rw [← h3]
        exact hlt n 9 (by positivity) (by exact_mod_cast (h9 n hn).1)
  refine ⟨_, _, (by
    unfold findUniqueEdges
    simp only [hc, List.map_cons, List.map_nil, edgesOf, midpoints, lastEdge, Except.map]
    rfl), ?_⟩
  have l8 : (28284 / 10000 : ℝ) < Real.sqrt 8 := Real.lt_sqrt_of_sq_lt (by norm_num)
  have u6 : Real.sqrt 6 < 24495 / 10000 := by
    rw [Real.sqrt_lt' (by norm_num)]
    norm_num
  refine ⟨rfl, by simp, ?_, ?_, rfl⟩
  · simp only [List.cons_append, List.nil_append, List.getD_cons_succ, List.getD_cons_zero, Nat.cast_ofNat]
    linarith
  · simp only [List.cons_append, List.nil_append, List.getD_cons_succ, List.getD_cons_zero, Nat.cast_ofNat]
    linarith

/-- **C88 does not hold.** In a box with sides in the ratio 2000 : 2001 two modes are in one bin if they are on the same rank, and in two bins otherwise. -/
theorem depends_on_ranks :
    (findUniqueEdges Rat.sqrt 1 2 [[0, 1, (2001 / 2000 : ℚ) ^ 2]]).map (fun r => r.2) = .ok [0, 1] ∧
    (findUniqueEdges Rat.sqrt 1 2 [[0, 1], [(2001 / 2000 : ℚ) ^ 2]]).map (fun r => r.2) = .ok [0, 1, 2001 / 2000] := by
  decide +kernel

end NBK.Uedges
