import Verif.Paint.Model
import Mathlib.Data.List.Perm.Basic
import Mathlib.Algebra.BigOperators.Group.List.Lemmas
import Mathlib.Tactic.Linarith
import Mathlib.Tactic.FieldSimp

/-! # Chunked painting: property C32 -/
set_option linter.unusedSimpArgs false
namespace NBK.Paint

/-- All selected rows of all ranks. -/
def selected (ranks : List (List Row)) : List Row := ranks.flatten.filter fun r => r.sel

theorem foldl_max_ge (l : List Nat) (a : Nat) : a ≤ l.foldl max a ∧ ∀ x ∈ l, x ≤ l.foldl max a := by
  induction l generalizing a with
  | nil => simp
  | cons b l ih =>
    obtain ⟨h1, h2⟩ := ih (max a b)
    simp only [List.foldl_cons, List.mem_cons]
    refine ⟨by omega, ?_⟩
    rintro x (rfl | hx)
    · omega
    · exact h2 x hx

/-- Taking one more chunk. -/
theorem take_add (rows : List Row) (i c : Nat) :
    (rows.take (i + c)).filter Row.sel = (rows.take i).filter Row.sel ++ chunk i c rows := by
  unfold chunk
  rw [List.take_add, List.filter_append]

theorem flatten_append_perm (ranks : List (List Row)) (f g : List Row → List Row) :
    (ranks.map fun r => f r ++ g r).flatten.Perm ((ranks.map f).flatten ++ (ranks.map g).flatten) := by
  induction ranks with
  | nil => exact .refl _
  | cons r ranks ih =>
    simp only [List.map_cons, List.flatten_cons]
    refine (List.Perm.append_left _ ih).trans ?_
    simp only [List.append_assoc]
    refine List.Perm.append_left _ ?_
    rw [← List.append_assoc, ← List.append_assoc]
    exact List.Perm.append_right _ List.perm_append_comm

theorem tally_append (a b : List Row) : tallyOf (a ++ b) = (tallyOf a).add (tallyOf b) := by
  simp [tallyOf, Tally.add]

/-- What has been done when the first `i` rows of each rank are painted. -/
structure Done (ranks : List (List Row)) (i : Nat) (s : State) : Prop where
  mesh : s.mesh.Perm (ranks.map fun rows => (rows.take i).filter Row.sel).flatten
  tally : s.tally = ranks.map fun rows => tallyOf ((rows.take i).filter Row.sel)

theorem done_chunk (dest : Row → List Nat) (maxc : Nat) (ranks : List (List Row)) (i c : Nat) (s s' : State)
    (h : Done ranks i s) (hs : dochunk dest maxc ranks i c s = some s') : Done ranks (i + c) s' := by
  unfold dochunk at hs
  simp only at hs
  split at hs
  · cases hs
  · cases hs
    constructor
    · simp only [take_add]
      refine List.Perm.trans ?_ (flatten_append_perm ranks _ _).symm
      exact List.Perm.append_right _ h.mesh
    · simp only [take_add, tally_append, h.tally, List.map_map]
      rw [List.zipWith_map, List.zipWith_self]
      rfl

/-- Every row of every rank, once the loop is past the longest rank. -/
theorem loop_ok (dest : Row → List Nat) (maxc : Nat) (ranks : List (List Row)) (nmax : Nat) (i c : Nat) (s s' : State)
    (h : Done ranks i s) (hl : loop dest maxc ranks nmax i c s = .ok s') : ∃ j, nmax ≤ j ∧ Done ranks j s' := by
  fun_induction loop dest maxc ranks nmax i c s with
  | case1 i c s hi hd hc => cases hl
  | case2 i c s hi hd hc ih => exact ih h hl
  | case3 i s hi s1 hd => cases hl
  | case4 i s hi c s1 hd hc ih => exact ih (done_chunk dest maxc ranks _ _ _ _ h hd) hl
  | case5 i c s hi => cases hl; exact ⟨i, by omega, h⟩

/-- The loop ends with a result or the RuntimeError if the chunk size is positive. -/
theorem loop_ends (dest : Row → List Nat) (maxc : Nat) (ranks : List (List Row)) (nmax : Nat) (i c : Nat) (s : State)
    (hm : 0 < maxc) (hc0 : 0 < c) : loop dest maxc ranks nmax i c s ≠ .error .diverges := by
  fun_induction loop dest maxc ranks nmax i c s with
  | case1 i c s hi hd hc => simp
  | case2 i c s hi hd hc ih => exact ih (by omega)
  | case3 i s hi s1 hd => omega
  | case4 i s hi c s1 hd hc ih => exact ih (by omega)
  | case5 i c s hi => simp

/-- The RuntimeError means that a chunk of one row per rank was refused. -/
theorem loop_fails (dest : Row → List Nat) (maxc : Nat) (ranks : List (List Row)) (nmax : Nat) (i c : Nat) (s : State)
    (hm : 0 < maxc) (hc0 : 0 < c) (hl : loop dest maxc ranks nmax i c s = .error .runtime) :
    ∃ j, j < nmax ∧ ∃ r, r < ranks.length ∧ recvlength dest (ranks.map (chunk j 1)) r > 2 * maxc := by
  fun_induction loop dest maxc ranks nmax i c s with
  | case1 i c s hi hd hc =>
    have : c = 1 := by omega
    subst this
    refine ⟨i, hi, ?_⟩
    unfold dochunk at hd
    simp only at hd
    split at hd
    · rename_i h
      obtain ⟨r, h1, h2⟩ := List.any_eq_true.mp h
      exact ⟨r, List.mem_range.mp h1, of_decide_eq_true h2⟩
    · cases hd
  | case2 i c s hi hd hc ih => exact ih (by omega) hl
  | case3 i s hi s1 hd => omega
  | case4 i s hi c s1 hd hc ih => exact ih (by omega) hl
  | case5 i c s hi => cases hl

theorem recv_le (dest : Row → List Nat) (ranks : List (List Row)) (j r : Nat) :
    recvlength dest (ranks.map (chunk j 1)) r ≤ ranks.length := by
  unfold recvlength
  induction ranks with
  | nil => simp
  | cons x ranks ih =>
    simp only [List.map_cons, List.sum_cons, List.length_cons]
    have h1 : ((chunk j 1 x).filter fun y => (dest y).contains r).length ≤ 1 := by
      refine (List.length_filter_le _ _).trans ?_
      refine (List.length_filter_le _ _).trans ?_
      simp
    omega

theorem filter_flatten_map (ranks : List (List Row)) :
    (ranks.map fun rows => rows.filter Row.sel).flatten = selected ranks := by
  unfold selected
  rw [List.filter_flatten]

theorem done_init (ranks : List (List Row)) : Done ranks 0 ⟨[], ranks.map fun _ => ⟨0, 0, 0⟩⟩ := by
  constructor
  · have : ∀ l : List (List Row), (l.map fun _ => ([] : List Row)).flatten = [] := by
      intro l; induction l with
      | nil => rfl
      | cons a l ih => simpa using ih
    simp only [List.take_zero, List.filter_nil, this]
    exact .refl _
  · simp [tallyOf]

theorem done_all (ranks : List (List Row)) (j : Nat) (s : State) (hj : (ranks.map List.length).foldl max 0 ≤ j)
    (h : Done ranks j s) : s.mesh.Perm (selected ranks) ∧ s.tally = ranks.map fun rows => tallyOf (rows.filter Row.sel) := by
  have ht : ∀ rows ∈ ranks, rows.take j = rows := by
    intro rows hr
    have := (foldl_max_ge (ranks.map List.length) 0).2 rows.length (List.mem_map_of_mem hr)
    exact List.take_of_length_le (by omega)
  have h1 := h.mesh
  have h2 := h.tally
  rw [List.map_congr_left (g := fun rows => rows.filter Row.sel) (fun rows hr => by rw [ht rows hr])] at h1
  rw [List.map_congr_left (g := fun rows => tallyOf (rows.filter Row.sel)) (fun rows hr => by rw [ht rows hr])] at h2
  rw [filter_flatten_map] at h1
  exact ⟨h1, h2⟩

theorem sum_tally (ranks : List (List Row)) :
    ((ranks.map fun rows => tallyOf (rows.filter Row.sel)).map Tally.n).sum = (selected ranks).length ∧
    ((ranks.map fun rows => tallyOf (rows.filter Row.sel)).map Tally.w).sum = ((selected ranks).map Row.weight).sum ∧
    ((ranks.map fun rows => tallyOf (rows.filter Row.sel)).map Tally.w2).sum =
      ((selected ranks).map fun r => r.weight * r.weight).sum := by
  unfold selected
  induction ranks with
  | nil => simp
  | cons a ranks ih =>
    obtain ⟨h1, h2, h3⟩ := ih
    simp only [List.map_cons, List.sum_cons, h1, h2, h3, List.flatten_cons, List.filter_append, List.length_append,
      List.map_append, List.sum_append]
    refine ⟨rfl, rfl, ?_⟩
    simp only [tallyOf, pow_two]

/-- C32: whatever the decomposition (`dest`) and hence the throttling, if painting succeeds then every selected row of every
rank was deposited exactly once (with its own weight and value), and the attributes are those of the selected rows. -/
theorem paint_exactly_once (dest : Row → List Nat) (maxc : Nat) (ranks : List (List Row)) (ncells : Nat) (volume : ℚ)
    (normalize : Bool) (res : Result) (h : paint dest maxc ranks ncells volume normalize = .ok res) :
    res.mesh.Perm (selected ranks) ∧ res.N = (selected ranks).length ∧
    res.W = ((selected ranks).map Row.weight).sum ∧
    res.W2 = ((selected ranks).map fun r => r.weight * r.weight).sum ∧
    res.nbar = ((selected ranks).map Row.weight).sum / ncells ∧
    res.shotnoise * ((selected ranks).map Row.weight).sum ^ 2 =
      (if ((selected ranks).map Row.weight).sum = 0 then 0
       else volume * ((selected ranks).map fun r => r.weight * r.weight).sum) := by
  unfold paint at h
  cases hl : loop dest maxc ranks ((ranks.map List.length).foldl max 0) 0 maxc ⟨[], ranks.map fun _ => ⟨0, 0, 0⟩⟩ with
  | error e => rw [hl] at h; cases h
  | ok s =>
    rw [hl] at h
    obtain ⟨j, hj, hd⟩ := loop_ok _ _ _ _ _ _ _ _ (done_init ranks) hl
    obtain ⟨h1, h2⟩ := done_all ranks j s hj hd
    obtain ⟨g1, g2, g3⟩ := sum_tally ranks
    simp only [Except.ok.injEq] at h
    subst h
    simp only [finish, h2, g1, g2, g3]
    refine ⟨h1, trivial, trivial, trivial, trivial, ?_⟩
    split
    · rename_i h0; rw [h0]; simp
    · rename_i h0; field_simp

/-- C32: with a positive chunk size the loop always ends, with a result or with the RuntimeError; the latter only if there is
a position in the catalog where one row of each rank is already too much for some rank. -/
theorem paint_ends (dest : Row → List Nat) (maxc : Nat) (hm : 0 < maxc) (ranks : List (List Row)) (ncells : Nat) (volume : ℚ)
    (normalize : Bool) :
    (∃ res, paint dest maxc ranks ncells volume normalize = .ok res) ∨
    paint dest maxc ranks ncells volume normalize = .error .runtime ∧
      ∃ j r, r < ranks.length ∧ recvlength dest (ranks.map (chunk j 1)) r > 2 * maxc := by
  unfold paint
  cases hl : loop dest maxc ranks ((ranks.map List.length).foldl max 0) 0 maxc ⟨[], ranks.map fun _ => ⟨0, 0, 0⟩⟩ with
  | ok s => exact .inl ⟨_, rfl⟩
  | error e =>
    cases e with
    | diverges => exact absurd hl (loop_ends _ _ _ _ _ _ _ hm hm)
    | runtime =>
      obtain ⟨j, hj, r, hr, h⟩ := loop_fails _ _ _ _ _ _ _ hm hm hl
      exact .inr ⟨rfl, j, r, hr, h⟩

/-- C32: painting cannot fail at all with at most `2 * paint_chunk_size` ranks. -/
theorem paint_succeeds (dest : Row → List Nat) (maxc : Nat) (hm : 0 < maxc) (ranks : List (List Row))
    (hP : ranks.length ≤ 2 * maxc) (ncells : Nat) (volume : ℚ) (normalize : Bool) :
    ∃ res, paint dest maxc ranks ncells volume normalize = .ok res := by
  rcases paint_ends dest maxc hm ranks ncells volume normalize with h | ⟨_, j, r, _, h⟩
  · exact h
  · have := recv_le dest ranks j r
    omega

/-- The result does not depend on the chunk size, the throttling or the distribution of the rows: two successful paintings of
catalogs with the same rows deposit the same multiset of rows and have the same attributes and normalization. -/
theorem paint_independent (dest dest' : Row → List Nat) (maxc maxc' : Nat) (ranks ranks' : List (List Row))
    (hp : ranks.flatten.Perm ranks'.flatten) (ncells : Nat) (volume : ℚ) (normalize : Bool) (res res' : Result)
    (h : paint dest maxc ranks ncells volume normalize = .ok res)
    (h' : paint dest' maxc' ranks' ncells volume normalize = .ok res') :
    res.mesh.Perm res'.mesh ∧ res.factor = res'.factor ∧ res.N = res'.N ∧ res.W = res'.W ∧ res.W2 = res'.W2 ∧
      res.nbar = res'.nbar ∧ res.shotnoise = res'.shotnoise := by
  have hsel : (selected ranks).Perm (selected ranks') := hp.filter _
  have a := paint_exactly_once _ _ _ _ _ _ _ h
  have b := paint_exactly_once _ _ _ _ _ _ _ h'
  have hW : res.W = res'.W := by rw [a.2.2.1, b.2.2.1]; exact (hsel.map _).sum_eq
  have hW2 : res.W2 = res'.W2 := by rw [a.2.2.2.1, b.2.2.2.1]; exact (hsel.map _).sum_eq
  have key : ∀ (d : Row → List Nat) (m : Nat) (rk : List (List Row)) (r : Result),
      paint d m rk ncells volume normalize = .ok r → r.nbar = r.W / ncells ∧ r.shotnoise = volume * r.W2 / r.W ^ 2 ∧
        r.factor = if normalize then (if r.nbar > 0 then some (1 / r.nbar) else none) else some 1 := by
    intro d m rk r hr
    unfold paint at hr
    cases hl : loop d m rk ((rk.map List.length).foldl max 0) 0 m ⟨[], rk.map fun _ => ⟨0, 0, 0⟩⟩ with
    | error e => rw [hl] at hr; cases hr
    | ok s =>
      rw [hl] at hr
      simp only [Except.ok.injEq] at hr
      subst hr
      exact ⟨rfl, rfl, rfl⟩
  obtain ⟨k1, k2, k3⟩ := key _ _ _ _ h
  obtain ⟨l1, l2, l3⟩ := key _ _ _ _ h'
  have hn : res.nbar = res'.nbar := by rw [k1, l1, hW]
  refine ⟨a.1.trans (hsel.trans b.1.symm), by rw [k3, l3, hn], ?_, hW, hW2, hn, by rw [k2, l2, hW, hW2]⟩
  rw [a.2.1, b.2.1]
  exact hsel.length_eq

/-- Normalization: for unit values and a positive total weight the mean over the cells of the normalized mesh is 1. -/
theorem paint_mean_one (dest : Row → List Nat) (maxc : Nat) (ranks : List (List Row)) (ncells : Nat) (hc : 0 < ncells)
    (volume : ℚ) (res : Result) (h : paint dest maxc ranks ncells volume true = .ok res)
    (hv : ∀ r ∈ selected ranks, r.value = 1) (hW : 0 < ((selected ranks).map Row.weight).sum) :
    ∃ f, res.factor = some f ∧ f * (res.mesh.map fun r => r.weight * r.value).sum / ncells = 1 := by
  have a := paint_exactly_once _ _ _ _ _ _ _ h
  have hcq : (0 : ℚ) < ncells := by exact_mod_cast hc
  have hpos : res.nbar > 0 := by rw [a.2.2.2.2.1]; exact div_pos hW hcq
  have hf : res.factor = some (1 / res.nbar) := by
    unfold paint at h
    cases hl : loop dest maxc ranks ((ranks.map List.length).foldl max 0) 0 maxc ⟨[], ranks.map fun _ => ⟨0, 0, 0⟩⟩ with
    | error e => rw [hl] at h; cases h
    | ok s =>
      rw [hl] at h
      simp only [Except.ok.injEq] at h
      subst h
      simp only [finish] at hpos ⊢
      rw [if_pos trivial, if_pos hpos]
  refine ⟨_, hf, ?_⟩
  have hsum : (res.mesh.map fun r => r.weight * r.value).sum = ((selected ranks).map Row.weight).sum := by
    rw [((a.1).map _).sum_eq]
    congr 1
    apply List.map_congr_left
    intro r hr
    rw [hv r hr, mul_one]
  rw [hsum, a.2.2.2.2.1]
  field_simp

/-- A chunk size of 0 (`set_options(paint_chunk_size=0)` is accepted) never ends on a catalog with a row. -/
theorem paint_zero_chunk_diverges (dest : Row → List Nat) (rows : List Row) (hr : rows ≠ []) (ncells : Nat) (volume : ℚ)
    (normalize : Bool) : paint dest 0 [rows] ncells volume normalize = .error .diverges := by
  have hl : 0 < rows.length := List.length_pos_iff.mpr hr
  have : loop dest 0 [rows] ([rows].map List.length |>.foldl max 0) 0 0 ⟨[], [rows].map fun _ => ⟨0, 0, 0⟩⟩ =
      .error .diverges := by
    unfold loop
    rw [if_pos (by simpa using hl)]
    simp [dochunk, chunk, recvlength]
  unfold paint
  rw [this]

/-- Non-vacuity: two ranks of different lengths, all rows going to rank 0, chunk size 1, one row not selected. -/
example : ∃ res, paint (fun _ => [0]) 1
      [[⟨1, 1, 1, true⟩, ⟨2, 3, 1, false⟩, ⟨3, 2, 1, true⟩], [⟨4, 1/2, 1, true⟩]] 8 1 true = .ok res ∧ res.N = 3 := by
  obtain ⟨res, h⟩ := paint_succeeds (fun _ => [0]) 1 (by decide)
    [[⟨1, 1, 1, true⟩, ⟨2, 3, 1, false⟩, ⟨3, 2, 1, true⟩], [⟨4, 1/2, 1, true⟩]] (by decide) 8 1 true
  exact ⟨res, h, (paint_exactly_once _ _ _ _ _ _ _ h).2.1⟩

/-- The RuntimeError does occur: three ranks with one row each, all sent to rank 0, and chunk size 1. -/
example : paint (fun _ => [0]) 1 [[⟨1, 1, 1, true⟩], [⟨2, 1, 1, true⟩], [⟨3, 1, 1, true⟩]] 8 1 true = .error .runtime := by
  have : loop (fun _ => [0]) 1 [[⟨1, 1, 1, true⟩], [⟨2, 1, 1, true⟩], [⟨3, 1, 1, true⟩]] 1 0 1
      ⟨[], [⟨0, 0, 0⟩, ⟨0, 0, 0⟩, ⟨0, 0, 0⟩]⟩ = .error .runtime := by
    unfold loop
    rw [if_pos (by decide)]
    have : dochunk (fun _ => [0]) 1 [[⟨1, 1, 1, true⟩], [⟨2, 1, 1, true⟩], [⟨3, 1, 1, true⟩]] 0 1
      ⟨[], [⟨0, 0, 0⟩, ⟨0, 0, 0⟩, ⟨0, 0, 0⟩]⟩ = none := by
      unfold dochunk
      exact if_pos (by decide)
    rw [this]
    rfl
  have h2 : ∀ x : Except Err State, x = .error .runtime →
      (match x with
        | .error e => .error e
        | .ok s => .ok (finish s 8 1 true) : Except Err Result) = .error .runtime := by
    intro x hx; rw [hx]
  exact h2 _ this

end NBK.Paint
