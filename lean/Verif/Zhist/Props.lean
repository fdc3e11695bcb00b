import Verif.Zhist.Model
import Mathlib.Tactic.Ring
import Mathlib.Tactic.Linarith
import Mathlib.Data.List.GetD
import Mathlib.Algebra.Order.BigOperators.Group.List

set_option linter.unusedSimpArgs false

/-! C50: the redshift histogram; C63: the default bins. -/
namespace NBK.Zhist

theorem sorted_count (edges : List ℚ) (hs : edges.Pairwise (· ≤ ·)) (x : ℚ) (b : Nat) (hb : b < edges.length) :
    edges.getD b 0 ≤ x ↔ b < searchRight edges x := by
  unfold searchRight
  induction edges generalizing b with
  | nil => simp at hb
  | cons e es ih =>
    rw [List.pairwise_cons] at hs
    rw [List.countP_cons]
    cases b with
    | zero =>
      rw [List.getD_cons_zero]
      by_cases h : e ≤ x
      · simp [h]
      · have : es.countP (fun e => decide (e ≤ x)) = 0 := by
          rw [List.countP_eq_zero]
          intro a ha hle
          have := hs.1 a ha
          simp only [decide_eq_true_eq] at hle
          exact h (le_trans this hle)
        simp [h, this]
    | succ b =>
      rw [List.getD_cons_succ]
      have hb' : b < es.length := by simpa using hb
      rw [ih hs.2 b hb']
      by_cases h : e ≤ x
      · simp [h]
      · have : es.countP (fun e => decide (e ≤ x)) = 0 := by
          rw [List.countP_eq_zero]
          intro a ha hle
          have := hs.1 a ha
          simp only [decide_eq_true_eq] at hle
          exact h (le_trans this hle)
        simp [h, this]

theorem searchRight_le (edges : List ℚ) (x : ℚ) : searchRight edges x ≤ edges.length := List.countP_le_length

theorem foldl_max_id (dig : List Nat) (m : Nat) (h : ∀ d ∈ dig, d + 1 ≤ m) :
    dig.foldl (fun m d => max m (d + 1)) m = m := by
  induction dig with
  | nil => rfl
  | cons d dig ih =>
    rw [List.foldl_cons, max_eq_left (h d (by simp))]
    exact ih fun x hx => h x (by simp [hx])

theorem localHist_eq (edges : List ℚ) (objs : List (ℚ × ℚ)) :
    localHist edges objs = (List.range (edges.length - 1)).map fun b =>
      (objs.map fun o => if searchRight edges o.1 = b + 1 then o.2 else 0).sum := by
  unfold localHist bincount inner
  rw [foldl_max_id]
  · apply List.ext_getElem
    · simp
    · intro i h1 h2
      simp only [List.getElem_dropLast, List.getElem_drop, List.getElem_map, List.getElem_range]
      rw [List.zip_map', List.map_map]
      congr 1
      apply List.map_congr_left
      intro o _
      simp only [Function.comp_def]
      rw [Nat.add_comm 1 i]
  · intro d hd
    obtain ⟨o, _, rfl⟩ := List.mem_map.mp hd
    have := searchRight_le edges o.1
    omega

theorem allsum_eq (n : Nat) (L : List (List (ℚ × ℚ))) (hL : L ≠ []) (f : Nat → (ℚ × ℚ) → ℚ) :
    allsum (L.map fun objs => (List.range n).map fun b => (objs.map (f b)).sum) =
      (List.range n).map fun b => (L.flatten.map (f b)).sum := by
  induction L with
  | nil => exact absurd rfl hL
  | cons a L ih =>
    cases L with
    | nil => simp [allsum]
    | cons a' L =>
      have := ih (by simp)
      rw [List.map_cons, List.map_cons, allsum]
      rw [List.map_cons] at this
      rw [this, List.zipWith_map]
      apply List.ext_getElem
      · simp
      · intro i _ _
        simp

/-- An object is in bin `b`. -/
theorem inBin (edges : List ℚ) (hs : edges.Pairwise (· ≤ ·)) (x : ℚ) (b : Nat) (hb : b + 1 < edges.length) :
    searchRight edges x = b + 1 ↔ edges.getD b 0 ≤ x ∧ x < edges.getD (b + 1) 0 := by
  have h1 := sorted_count edges hs x b (by omega)
  have h2 := sorted_count edges hs x (b + 1) hb
  have h2' : x < edges.getD (b + 1) 0 ↔ ¬ b + 1 < searchRight edges x := by rw [← h2, not_le]
  rw [h1, h2']
  omega

/-- C50: on any number of ranks and for any distribution of the objects, for sorted edges, the histogram has a value for
every bin: the sum of the weights of the objects with `edges[b] <= z < edges[b+1]`. -/
theorem hist_eq (edges : List ℚ) (hs : edges.Pairwise (· ≤ ·)) (D : List (List (ℚ × ℚ))) (hD : D ≠ []) :
    (hist edges D).length = edges.length - 1 ∧
    ∀ b, b + 1 < edges.length → (hist edges D)[b]? = some ((D.flatten.map fun o =>
      if edges.getD b 0 ≤ o.1 ∧ o.1 < edges.getD (b + 1) 0 then o.2 else 0).sum) := by
  have e : hist edges D = (List.range (edges.length - 1)).map fun b =>
      (D.flatten.map fun o => if searchRight edges o.1 = b + 1 then o.2 else 0).sum := by
    unfold hist
    rw [← allsum_eq _ D hD]
    congr 1
    apply List.map_congr_left
    intro o _
    exact localHist_eq edges o
  rw [e]
  refine ⟨by simp, fun b hb => ?_⟩
  rw [List.getElem?_map, List.getElem?_range (by omega)]
  simp only [Option.map_some, Option.some.injEq]
  congr 1
  apply List.map_congr_left
  intro o _
  simp only [inBin edges hs o.1 b hb]

/-- C50: every object from the first edge on and below the last one is counted once, all others are dropped. -/
theorem hist_total (edges : List ℚ) (hs : edges.Pairwise (· ≤ ·)) (hne : edges ≠ []) (D : List (List (ℚ × ℚ)))
    (hD : D ≠ []) :
    (hist edges D).sum = (D.flatten.map fun o =>
      if edges.head hne ≤ o.1 ∧ o.1 < edges.getLast hne then o.2 else 0).sum := by
  have e : hist edges D = (List.range (edges.length - 1)).map fun b =>
      (D.flatten.map fun o => if searchRight edges o.1 = b + 1 then o.2 else 0).sum := by
    unfold hist
    rw [← allsum_eq _ D hD]
    congr 1
    apply List.map_congr_left
    intro o _
    exact localHist_eq edges o
  have hlen : 0 < edges.length := List.length_pos_iff.mpr hne
  have key : ∀ (L : List (ℚ × ℚ)) (n : Nat), ((List.range n).map fun b =>
      (L.map fun o => if searchRight edges o.1 = b + 1 then o.2 else 0).sum).sum =
      (L.map fun o => if 0 < searchRight edges o.1 ∧ searchRight edges o.1 ≤ n then o.2 else 0).sum := by
    intro L n
    induction n with
    | zero =>
      symm
      simp only [List.range_zero, List.map_nil, List.sum_nil]
      apply List.sum_eq_zero
      intro v hv
      obtain ⟨o, _, rfl⟩ := List.mem_map.mp hv
      rw [if_neg (by omega)]
    | succ n ih =>
      rw [List.range_succ, List.map_append, List.sum_append, ih]
      simp only [List.map_cons, List.map_nil, List.sum_cons, List.sum_nil, add_zero]
      rw [← List.sum_map_add]
      congr 1
      apply List.map_congr_left
      intro o _
      by_cases h1 : searchRight edges o.1 = n + 1
      · rw [if_neg (by omega), if_pos h1, if_pos (by omega), zero_add]
      · rw [if_neg h1, add_zero]
        by_cases h2 : 0 < searchRight edges o.1 ∧ searchRight edges o.1 ≤ n
        · rw [if_pos h2, if_pos (by omega)]
        · rw [if_neg h2, if_neg (by omega)]
  rw [e, key]
  congr 1
  apply List.map_congr_left
  intro o _
  have h0 := sorted_count edges hs o.1 0 hlen
  have h1 := sorted_count edges hs o.1 (edges.length - 1) (by omega)
  have e0 : edges.getD 0 0 = edges.head hne := by
    rw [List.getD_eq_getElem _ _ hlen, List.head_eq_getElem]
  have e1 : edges.getD (edges.length - 1) 0 = edges.getLast hne := by
    rw [List.getD_eq_getElem _ _ (by omega), List.getLast_eq_getElem]
  rw [e0] at h0
  rw [e1] at h1
  have : (0 < searchRight edges o.1 ∧ searchRight edges o.1 ≤ edges.length - 1) ↔
      (edges.head hne ≤ o.1 ∧ o.1 < edges.getLast hne) := by
    have h1' : o.1 < edges.getLast hne ↔ ¬ edges.length - 1 < searchRight edges o.1 := by rw [← h1, not_le]
    rw [h0, h1']; omega
  simp only [this]

/-- C50: the histogram depends only on the objects, not on their distribution and order. -/
theorem hist_indep (edges : List ℚ) (hs : edges.Pairwise (· ≤ ·)) (D D' : List (List (ℚ × ℚ))) (hD : D ≠ [])
    (hD' : D' ≠ []) (h : D.flatten.Perm D'.flatten) : hist edges D = hist edges D' := by
  obtain ⟨l1, h1⟩ := hist_eq edges hs D hD
  obtain ⟨l2, h2⟩ := hist_eq edges hs D' hD'
  apply List.ext_getElem?
  intro b
  by_cases hb : b + 1 < edges.length
  · rw [h1 b hb, h2 b hb, (h.map _).sum_eq]
  · rw [List.getElem?_eq_none (by omega), List.getElem?_eq_none (by omega)]

/-- An object exactly on the last edge is dropped (`numpy.histogram` would count it). -/
theorem last_edge_dropped : hist [0, 1, 2] [[(0, 1), (1, 1)], [(2, 1)]] = [1, 1] := by decide +kernel

/-- The number density times the volume of its shell is the count. -/
theorem nbar_volume (π fsky : ℚ) (r : ℚ → ℚ) (edges : List ℚ) (D : List (List (ℚ × ℚ))) (b : Nat) (n v x : ℚ)
    (hn : (hist edges D)[b]? = some n) (hv : (volumes π fsky r edges)[b]? = some v)
    (hx : (nbar π fsky r edges D)[b]? = some (some x)) : x * v = n := by
  unfold nbar at hx
  rw [List.getElem?_zipWith, hn, hv] at hx
  simp only [Option.some.injEq] at hx
  split at hx
  · simp at hx
  · rename_i h0
    rw [Option.some.injEq] at hx
    rw [← hx, div_mul_cancel₀ _ h0]

/-- The volume of a shell is that between its two edges. -/
theorem volumes_get (π fsky : ℚ) (r : ℚ → ℚ) (edges : List ℚ) (b : Nat) (lo hi : ℚ) (h1 : edges[b]? = some lo)
    (h2 : edges[b + 1]? = some hi) :
    (volumes π fsky r edges)[b]? = some (4 / 3 * π * (r hi ^ 3 - r lo ^ 3) * fsky) := by
  unfold volumes
  have hl := (List.getElem?_eq_some_iff.mp h2).1
  have e : edges.dropLast[b]? = some lo := by
    rw [List.getElem?_dropLast, if_pos (by omega), h1]
  rw [List.getElem?_zipWith, List.getElem?_tail, h2, e]

example : hist [0, 1, 3] [[(1/2, 2), (5, 1)], [], [(1, 3), (2, 1), (-1, 7)]] = [2, 4] ∧
    nbar 3 1 (fun z => z) [0, 1, 3] [[(1/2, 2), (5, 1)], [], [(1, 3), (2, 1), (-1, 7)]] =
      [some (2 / 4), some (4 / (4 * 26))] := by decide +kernel

/-! ### C63 -/

theorem mapM_minmax (D : List (List ℚ)) (h : ∀ l ∈ D, l ≠ []) :
    ∃ mm, D.mapM localMinMax = .ok mm ∧ mm.length = D.length ∧
      ∀ (i : Nat) (l : List ℚ), D[i]? = some l → ∃ p, mm[i]? = some p ∧ ∀ z ∈ l, p.1 ≤ z ∧ z ≤ p.2 := by
  have hmin : ∀ (l : List ℚ) (m : ℚ), l.foldl min m ≤ m ∧ ∀ e ∈ l, l.foldl min m ≤ e := by
    intro l
    induction l with
    | nil => intro m; exact ⟨le_refl m, by simp⟩
    | cons a l ih =>
      intro m
      rw [List.foldl_cons]
      have h := ih (min m a)
      refine ⟨le_trans h.1 (min_le_left _ _), ?_⟩
      intro e he
      rcases List.mem_cons.mp he with rfl | he
      · exact le_trans h.1 (min_le_right _ _)
      · exact h.2 e he
  have hmax : ∀ (l : List ℚ) (m : ℚ), m ≤ l.foldl max m ∧ ∀ e ∈ l, e ≤ l.foldl max m := by
    intro l
    induction l with
    | nil => intro m; exact ⟨le_refl m, by simp⟩
    | cons a l ih =>
      intro m
      rw [List.foldl_cons]
      have h := ih (max m a)
      refine ⟨le_trans (le_max_left _ _) h.1, ?_⟩
      intro e he
      rcases List.mem_cons.mp he with rfl | he
      · exact le_trans (le_max_right _ _) h.1
      · exact h.2 e he
  induction D with
  | nil => exact ⟨[], rfl, rfl, by simp⟩
  | cons l D ih =>
    obtain ⟨mm, hmm, hlen, hget⟩ := ih fun l hl => h l (by simp [hl])
    obtain ⟨z, zs, rfl⟩ := List.exists_cons_of_ne_nil (h l (by simp))
    refine ⟨(zs.foldl min z, zs.foldl max z) :: mm, ?_, by simp [hlen], ?_⟩
    · rw [List.mapM_cons, hmm]; rfl
    · intro i l hi
      cases i with
      | zero =>
        simp only [List.getElem?_cons_zero, Option.some.injEq] at hi
        subst hi
        refine ⟨_, rfl, ?_⟩
        intro v hv
        rcases List.mem_cons.mp hv with rfl | hv
        · exact ⟨(hmin zs v).1, (hmax zs v).1⟩
        · exact ⟨(hmin zs z).2 v hv, (hmax zs z).2 v hv⟩
      | succ i =>
        simp only [List.getElem?_cons_succ] at hi ⊢
        exact hget i l hi

theorem fold_min_le (l : List ℚ) (m : ℚ) : l.foldl min m ≤ m ∧ ∀ e ∈ l, l.foldl min m ≤ e := by
  induction l generalizing m with
  | nil => exact ⟨le_refl m, by simp⟩
  | cons a l ih =>
    rw [List.foldl_cons]
    have h := ih (min m a)
    refine ⟨le_trans h.1 (min_le_left _ _), ?_⟩
    intro e he
    rcases List.mem_cons.mp he with rfl | he
    · exact le_trans h.1 (min_le_right _ _)
    · exact h.2 e he

theorem le_fold_max (l : List ℚ) (m : ℚ) : m ≤ l.foldl max m ∧ ∀ e ∈ l, e ≤ l.foldl max m := by
  induction l generalizing m with
  | nil => exact ⟨le_refl m, by simp⟩
  | cons a l ih =>
    rw [List.foldl_cons]
    have h := ih (max m a)
    refine ⟨le_trans (le_max_left _ _) h.1, ?_⟩
    intro e he
    rcases List.mem_cons.mp he with rfl | he
    · exact le_trans (le_max_right _ _) h.1
    · exact h.2 e he

theorem headfold_min (l : List ℚ) (e : ℚ) (he : e ∈ l) : l.tail.foldl min (l.headD 0) ≤ e := by
  cases l with
  | nil => simp at he
  | cons a l =>
    rcases List.mem_cons.mp he with rfl | he
    · exact (fold_min_le l e).1
    · exact (fold_min_le l a).2 e he

theorem headfold_max (l : List ℚ) (e : ℚ) (he : e ∈ l) : e ≤ l.tail.foldl max (l.headD 0) := by
  cases l with
  | nil => simp at he
  | cons a l =>
    rcases List.mem_cons.mp he with rfl | he
    · exact (le_fold_max l e).1
    · exact (le_fold_max l a).2 e he

/-- C63: with a positive width and at least one object on every rank, the default edges are sorted and consecutive
edges differ by the width, all objects are between the first and the last edge, and the last edge is less than a bin
width (or than one bin) above the smallest possible. -/
theorem scott_edges (dx : ℚ) (hdx : 0 < dx) (D : List (List (ℚ × ℚ))) (hne : ∀ l ∈ D, l ≠ []) :
    ∃ edges, ∃ he : edges ≠ [], initEdges dx .none D = .ok edges ∧ edges.Pairwise (· ≤ ·) ∧ 2 ≤ edges.length ∧
      (∀ (b : Nat) (lo hi : ℚ), edges[b]? = some lo → edges[b + 1]? = some hi → hi - lo = dx) ∧
      ∀ o ∈ D.flatten, edges.head he ≤ o.1 ∧ o.1 ≤ edges.getLast he := by
  obtain ⟨mm, hmm, hlen, hget⟩ := mapM_minmax (D.map fun l => l.map Prod.fst) (by
    intro l hl
    obtain ⟨l', hl', rfl⟩ := List.mem_map.mp hl
    simpa using hne l' hl')
  have hinit : initEdges dx .none D = scottEdges dx (D.map fun l => l.map Prod.fst) := rfl
  unfold scottEdges at hinit
  rw [hmm] at hinit
  simp only [bind, Except.bind, pure, Except.pure, if_neg hdx.ne'] at hinit
  generalize hmin : (mm.map Prod.fst).tail.foldl min ((mm.map Prod.fst).headD 0) = mn at hinit
  generalize hmax : (mm.map Prod.snd).tail.foldl max ((mm.map Prod.snd).headD 0) = mx at hinit
  generalize hnb : max (1 : Int) ⌈(mx - mn) / dx⌉ = nb at hinit
  have hnb1 : 1 ≤ nb := by rw [← hnb]; exact le_max_left _ _
  have hnb2 : (mx - mn) / dx ≤ nb := by
    have h1 : ⌈(mx - mn) / dx⌉ ≤ nb := by rw [← hnb]; exact le_max_right _ _
    exact le_trans (Int.le_ceil _) (by exact_mod_cast h1)
  have hcast : ((nb.toNat : Nat) : ℚ) = (nb : ℚ) := by
    have : ((nb.toNat : Nat) : Int) = nb := Int.toNat_of_nonneg (by omega)
    exact_mod_cast congrArg (Int.cast (R := ℚ)) this
  refine ⟨_, by simp, hinit, ?_, ?_, ?_, ?_⟩
  · rw [List.pairwise_map]
    refine List.Pairwise.imp ?_ List.pairwise_lt_range
    intro a b hab
    have : (a : ℚ) ≤ b := by exact_mod_cast hab.le
    have := mul_le_mul_of_nonneg_left this hdx.le
    linarith
  · simp; omega
  · intro b lo hi h1 h2
    rw [List.getElem?_map] at h1 h2
    have hb : b + 1 < nb.toNat + 1 := by
      by_contra hc
      rw [List.getElem?_eq_none (by simp; omega)] at h2
      simp at h2
    rw [List.getElem?_range (by omega)] at h1
    rw [List.getElem?_range hb] at h2
    simp only [Option.map_some, Option.some.injEq] at h1 h2
    rw [← h1, ← h2]
    push_cast
    ring
  · intro o ho
    obtain ⟨l, hl, hol⟩ := List.mem_flatten.mp ho
    obtain ⟨i, hi⟩ := List.mem_iff_getElem?.mp hl
    obtain ⟨p, hp, hb⟩ := hget i (l.map Prod.fst) (by rw [List.getElem?_map, hi]; rfl)
    have hbo := hb o.1 (List.mem_map.mpr ⟨o, hol, rfl⟩)
    have hpm : p ∈ mm := List.mem_iff_getElem?.mpr ⟨i, hp⟩
    have hlo : mn ≤ o.1 := by
      rw [← hmin]
      exact le_trans (headfold_min _ p.1 (List.mem_map.mpr ⟨p, hpm, rfl⟩)) hbo.1
    have hhi : o.1 ≤ mx := by
      rw [← hmax]
      exact le_trans hbo.2 (headfold_max _ p.2 (List.mem_map.mpr ⟨p, hpm, rfl⟩))
    constructor
    · simp only [List.range_succ_eq_map, List.map_cons, List.head_cons]
      push_cast
      linarith
    · simp only [List.range_succ, List.map_append, List.map_cons, List.map_nil, List.getLast_append_singleton]
      rw [hcast]
      rw [div_le_iff₀ hdx] at hnb2
      linarith

/-- C63, partial: with the default bins every object is counted, if all ranks have objects, not all redshifts are equal
(positive width) and no object lies exactly on the last edge. -/
theorem scott_counts_all_partial (dx : ℚ) (hdx : 0 < dx) (D : List (List (ℚ × ℚ))) (hD : D ≠ [])
    (hne : ∀ l ∈ D, l ≠ []) (edges : List ℚ) (h : initEdges dx .none D = .ok edges)
    (hlast : ∀ o ∈ D.flatten, some o.1 ≠ edges.getLast?) :
    (hist edges D).sum = (D.flatten.map Prod.snd).sum := by
  obtain ⟨edges', he, h', hs, _, _, hb⟩ := scott_edges dx hdx D hne
  rw [h] at h'
  obtain rfl := Except.ok.inj h'
  rw [hist_total edges hs he D hD]
  congr 1
  apply List.map_congr_left
  intro o ho
  have := hb o ho
  have hl := hlast o ho
  rw [List.getLast?_eq_some_getLast he] at hl
  rw [if_pos ⟨this.1, lt_of_le_of_ne this.2 fun hc => hl (by rw [hc])⟩]

/-- C63 fails if the width divides the range: the objects at the maximum are dropped. -/
theorem scott_max_dropped : initEdges (1/2) .none [[(0, 1), (1/2, 1)], [(1, 1)]] = .ok [0, 1/2, 1] ∧
    hist [0, 1/2, 1] [[(0, 1), (1/2, 1)], [(1, 1)]] = [1, 1] := by
  constructor <;> decide +kernel

/-- C63 fails if all redshifts are equal (for instance for one object): the width is zero and all are dropped. -/
theorem scott_equal_dropped (z : ℚ) (n : Nat) :
    initEdges 0 .none [List.replicate (n + 1) (z, 1)] = .ok [z, z] ∧
    hist [z, z] [List.replicate (n + 1) (z, 1)] = [0] := by
  have hmn : ∀ k, (List.replicate k z).foldl min z = z := by
    intro k
    induction k with
    | zero => rfl
    | succ k ih => rw [List.replicate_succ, List.foldl_cons, min_self, ih]
  constructor
  · simp [initEdges, scottEdges, localMinMax, List.map_replicate, List.replicate_succ, bind, Except.bind, pure,
      Except.pure, List.mapM_cons, hmn, List.range_succ]
  · have h := hist_eq [z, z] (by simp) [List.replicate (n + 1) (z, (1 : ℚ))] (by simp)
    have h0 := h.2 0 (by simp)
    apply List.ext_getElem?
    intro b
    cases b with
    | zero =>
      rw [h0]
      simp
    | succ b =>
      rw [List.getElem?_eq_none (by rw [h.1]; simp)]
      simp

/-- C63 fails if a rank has no objects: the default bins raise. -/
theorem scott_empty_rank (dx : ℚ) (D : List (List (ℚ × ℚ))) (h : [] ∈ D) :
    initEdges dx .none D = .error .valueError := by
  have key : ∀ D : List (List ℚ), [] ∈ D → D.mapM localMinMax = .error .valueError := by
    intro D
    induction D with
    | nil => simp
    | cons l D ih =>
      intro h
      rw [List.mapM_cons]
      cases l with
      | nil => rfl
      | cons z zs =>
        rw [ih (by simpa using h)]
        rfl
  show scottEdges dx _ = _
  unfold scottEdges
  rw [key _ (List.mem_map.mpr ⟨[], h, rfl⟩)]
  rfl

/-- C50 fails for an integer number of bins, which the documentation allows: it always ends in an error. -/
theorem int_bins_fail (dx : ℚ) (n : Nat) (D : List (List (ℚ × ℚ))) (edges : List ℚ) :
    initEdges dx (.int n) D ≠ .ok edges := by
  unfold initEdges
  simp only [bind, Except.bind]
  split <;> simp

/-- C50: edges given by the user are the edges of the histogram, whatever the objects. -/
theorem given_edges (dx : ℚ) (e edges : List ℚ) (D : List (List (ℚ × ℚ))) (h : initEdges dx (.seq e) D = .ok edges) :
    edges = e := (Except.ok.inj h).symm

example : initEdges (3/4) .none [[(0, 1), (1/2, 1)], [(1, 1)]] = .ok [0, 3/4, 3/2] ∧
    hist [0, 3/4, 3/2] [[(0, 1), (1/2, 1)], [(1, 1)]] = [2, 1] := by
  constructor <;> decide +kernel

end NBK.Zhist
