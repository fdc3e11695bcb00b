import Verif.FileCat.Model
import Verif.Comm.Basic
import Mathlib.Data.List.Perm.Basic
import Mathlib.Tactic.Linarith

/-! # File catalogs and saving: properties C21 and C29 -/
set_option linter.unusedSimpArgs false
namespace NBK.FileCat
open NBK.PySlice

theorem fdiv_nat (a b : Nat) : Int.fdiv (a : Int) (b : Int) = ((a / b : Nat) : Int) := by
  rw [Int.fdiv_eq_ediv_of_nonneg _ (by omega)]; rfl

/-- Consecutive pieces of a list given by a monotone cut function. -/
theorem pieces_flatten {α : Type} (l : List α) (a : Nat → Nat) (h : ∀ r, a r ≤ a (r + 1)) (k : Nat) :
    ((List.range k).map fun r => (l.take (a (r + 1))).drop (a r)).flatten = (l.take (a k)).drop (a 0) := by
  induction k with
  | zero => simp
  | succ k ih =>
    rw [List.range_succ, List.map_append, List.flatten_append, ih]
    simp only [List.map_cons, List.map_nil, List.flatten_cons, List.flatten_nil, List.append_nil]
    have h0 : a 0 ≤ a k := by
      clear ih
      induction k with
      | zero => exact Nat.le_refl _
      | succ k ih => exact Nat.le_trans ih (h k)
    have e1 : l.take (a k) = (l.take (a (k + 1))).take (a k) := by rw [List.take_take]; congr 1; have := h k; omega
    rw [e1]
    generalize l.take (a (k + 1)) = m
    rcases Nat.le_total (a k) m.length with hk | hk
    · conv_rhs => rw [← List.take_append_drop (a k) m]
      rw [List.drop_append_of_le_length (by simp; omega)]
    · rw [List.take_of_length_le hk, List.drop_eq_nil_of_le hk, List.append_nil]

/-- The general statement: a range query started from a catalog whose `start` attribute is `b` addresses the file
rows `[b+s, b+e)`, spread evenly; and the new `start` attribute is `s`. -/
theorem query_general {ρ : Type} (c : FCat ρ) (b s e : Nat) (hb : c.start = b) (hP : 0 < c.P) (hse : s ≤ e)
    (he : b + e ≤ c.file.length) :
    ∃ c', queryRange [] c s e = .ok c' ∧ (allRows c').flatten = (c.file.take (b + e)).drop (b + s) ∧
      (allRows c').length = c.P ∧ c'.start = s ∧ c'.P = c.P ∧ c'.file = c.file ∧
      (∀ r, r < c.P → ((localRows c' r).length : Int) = size c' r) ∧
      (∀ p ∈ allRows c', ∀ q ∈ allRows c', p.length ≤ q.length + 1) := by
  generalize ha : (fun r : Nat => b + s + r * (e - s) / c.P) = a
  have hl : ∀ r : Nat, c.start + s + Int.fdiv (r * ((e : Int) - s)) c.P = (a r : Nat) := by
    intro r
    have e1 : ((r : Int) * ((e : Int) - s)) = ((r * (e - s) : Nat) : Int) := by
      rw [Nat.cast_mul, Nat.cast_sub hse]
    rw [e1, fdiv_nat, hb]
    subst ha; push_cast; ring
  have hl2 : ∀ r : Nat, c.start + s + Int.fdiv ((r + 1) * ((e : Int) - s)) c.P = (a (r + 1) : Nat) := by
    intro r
    have := hl (r + 1)
    push_cast at this ⊢
    exact this
  have hmono : ∀ r, a r ≤ a (r + 1) := by
    intro r
    subst ha
    simp only
    have : r * (e - s) / c.P ≤ (r + 1) * (e - s) / c.P := Nat.div_le_div_right (Nat.mul_le_mul_right _ (by omega))
    omega
  have h0 : a 0 = b + s := by subst ha; simp
  have hend : a c.P = b + e := by subst ha; simp [Nat.mul_div_cancel_left _ hP]; omega
  have hle : ∀ r, r ≤ c.P → a r ≤ b + e := by
    intro r hr
    subst ha
    simp only
    have : r * (e - s) / c.P ≤ c.P * (e - s) / c.P := Nat.div_le_div_right (Nat.mul_le_mul_right _ hr)
    rw [Nat.mul_div_cancel_left _ hP] at this
    omega
  have hgap : ∀ r, (e - s) / c.P ≤ a (r + 1) - a r ∧ a (r + 1) - a r ≤ (e - s) / c.P + 1 := by
    intro r
    subst ha
    simp only
    have e2 : (r + 1) * (e - s) = r * (e - s) + (e - s) := by ring
    rw [e2, Nat.add_div hP]
    generalize r * (e - s) / c.P = u
    generalize (e - s) / c.P = v
    split <;> omega
  refine ⟨_, rfl, ?_, ?_, rfl, rfl, rfl, ?_, ?_⟩
  all_goals simp only [allRows, size]
  all_goals unfold localRows
  all_goals simp only [hl, hl2, pySlice_nat, Option.getD_some]
  · rw [pieces_flatten _ _ hmono, hend, h0]
  · simp
  · intro r hr
    have := hle (r + 1) hr
    have := hmono r
    simp only [List.length_drop, List.length_take]
    omega
  · intro p hp q hq
    simp only [List.mem_map, List.mem_range] at hp hq
    obtain ⟨r, hr, rfl⟩ := hp
    obtain ⟨r', hr', rfl⟩ := hq
    have h1 := hgap r
    have h2 := hgap r'
    have := hle (r + 1) hr
    have := hle (r' + 1) hr'
    have := hmono r
    have := hmono r'
    simp only [List.length_drop, List.length_take]
    omega

/-- C21, reading: opening a file with any number of ranks gives its rows, in order, each once, spread evenly. -/
theorem open_rows {ρ : Type} (file : List ρ) (P : Nat) (hP : 0 < P) :
    (allRows (openFile file P)).flatten = file ∧ (allRows (openFile file P)).length = P ∧
      (∀ r, r < P → ((localRows (openFile file P) r).length : Int) = size (openFile file P) r) ∧
      (∀ p ∈ allRows (openFile file P), ∀ q ∈ allRows (openFile file P), p.length ≤ q.length + 1) := by
  obtain ⟨c', h1, h2, h3, _, _, _, h4, h5⟩ := query_general (openFile file P) 0 0 file.length rfl hP (Nat.zero_le _)
    (by simp [openFile])
  have hc : c' = openFile file P := by
    simp only [queryRange, List.length_nil, gt_iff_lt, Nat.lt_irrefl, if_false, Except.ok.injEq] at h1
    subst h1
    simp [openFile]
  subst hc
  refine ⟨?_, h3, h4, h5⟩
  rw [h2]; simp [openFile]

/-- C29, first query on a freshly opened catalog (or one whose last query started at 0): exactly the file rows
`[s, e)`, in order, evenly spread, and the reported sizes are right. -/
theorem query_rows_partial {ρ : Type} (c : FCat ρ) (s e : Nat) (hb : c.start = 0) (hP : 0 < c.P) (hse : s ≤ e)
    (he : e ≤ c.file.length) :
    ∃ c', queryRange [] c s e = .ok c' ∧ (allRows c').flatten = (c.file.take e).drop s ∧ (allRows c').length = c.P ∧
      (∀ r, r < c.P → ((localRows c' r).length : Int) = size c' r) ∧
      (∀ p ∈ allRows c', ∀ q ∈ allRows c', p.length ≤ q.length + 1) := by
  obtain ⟨c', h1, h2, h3, _, _, _, h4, h5⟩ := query_general c 0 s e hb hP hse (by omega)
  exact ⟨c', h1, by simpa using h2, h3, h4, h5⟩

/-- C29 is false for repeated queries under both readings of the range.
The second query does not address the physical rows it names (as documented) but is relative to the first; and the
third query is relative to the second alone, so that it is not relative to the current range either. -/
theorem query_repeated_wrong {ρ : Type} (file : List ρ) (P s1 e1 s2 e2 s3 e3 : Nat) (hP : 0 < P)
    (h1 : s1 ≤ e1) (h1' : e1 ≤ file.length) (h2 : s2 ≤ e2) (h2' : e2 ≤ e1 - s1)
    (h3 : s3 ≤ e3) (h3' : e3 ≤ e2 - s2) :
    ∃ c1 c2 c3, queryRange [] (openFile file P) s1 e1 = .ok c1 ∧ queryRange [] c1 s2 e2 = .ok c2 ∧
      queryRange [] c2 s3 e3 = .ok c3 ∧
      (allRows c2).flatten = (file.take (s1 + e2)).drop (s1 + s2) ∧
      (allRows c3).flatten = (file.take (s2 + e3)).drop (s2 + s3) := by
  obtain ⟨c1, a1, a2, _, a3, a4, a5, _⟩ := query_general (openFile file P) 0 s1 e1 rfl hP h1 (by simpa [openFile] using h1')
  obtain ⟨c2, b1, b2, _, b3, b4, b5, _⟩ := query_general c1 s1 s2 e2 a3 (by rw [a4]; exact hP) h2
    (by rw [a5]; simp only [openFile]; omega)
  obtain ⟨c3, d1, d2, _⟩ := query_general c2 s2 s3 e3 b3 (by rw [b4, a4]; exact hP) h3
    (by rw [b5, a5]; simp only [openFile]; omega)
  refine ⟨c1, c2, c3, a1, b1, d1, ?_, ?_⟩
  · rw [b2, a5]; rfl
  · rw [d2, b5, a5]; rfl

/-- A witness: rows 0..9; the range [2,9), then [1,6), then [1,3): the second query gives rows 3..7 instead of the
physical rows 1..5, and the third gives rows 2,3 although the current range is rows 3..7. -/
theorem query_repeated_witness : ∃ c1 c2 c3 : FCat Nat, queryRange [] (openFile (List.range 10) 2) 2 9 = .ok c1 ∧
    queryRange [] c1 1 6 = .ok c2 ∧ queryRange [] c2 1 3 = .ok c3 ∧
    (allRows c2).flatten = [3, 4, 5, 6, 7] ∧ (allRows c2).flatten ≠ ((List.range 10).take 6).drop 1 ∧
    (allRows c3).flatten = [2, 3] ∧ (allRows c3).flatten ≠ ((allRows c2).flatten.take 3).drop 1 := by
  obtain ⟨c1, c2, c3, h1, h2, h3, h4, h5⟩ := query_repeated_wrong (List.range 10) 2 2 9 1 6 1 3 (by omega) (by omega)
    (by decide) (by omega) (by omega) (by omega) (by omega)
  refine ⟨c1, c2, c3, h1, h2, h3, ?_⟩
  rw [h4, h5]; decide

/-- The documented ValueError for assigned columns is never raised: they are dropped silently. -/
theorem query_drops_assigned {ρ : Type} (c : FCat ρ) (col : String) (s e : Int) :
    ∃ c', queryRange [] (assign c col) s e = .ok c' ∧ col ∉ c'.assigned := ⟨_, rfl, by simp⟩

/-- Non-vacuity of `query_rows_partial`. -/
example : (openFile [1, 2, 3, 4, 5] 2).start = 0 ∧ 0 < (openFile [1, 2, 3, 4, 5] 2).P ∧ 1 ≤ 4 ∧
    4 ≤ (openFile [1, 2, 3, 4, 5] 2).file.length := by decide

/-! ## C21: saving -/

theorem writeBlock_length {ρ : Type} (buf : List (Option ρ)) (w : Nat × List ρ) :
    (writeBlock buf w).length = buf.length := by simp [writeBlock]

/-- A write holds the rows of the target at its position. -/
def Agrees {ρ : Type} (T : List ρ) (w : Nat × List ρ) : Prop :=
  ∀ (k : Nat), k < w.2.length → T[w.1 + k]? = w.2[k]?

def Covers {ρ : Type} (w : Nat × List ρ) (i : Nat) : Prop := w.1 ≤ i ∧ i < w.1 + w.2.length

instance {ρ : Type} (w : Nat × List ρ) (i : Nat) : Decidable (Covers w i) := by unfold Covers; infer_instance

theorem foldl_cell {ρ : Type} (T : List ρ) (ws : List (Nat × List ρ)) (hw : ∀ w ∈ ws, Agrees T w)
    (buf : List (Option ρ)) (i : Nat) (hi : i < buf.length) :
    (ws.foldl writeBlock buf)[i]? = if ∃ w ∈ ws, Covers w i then some (T[i]?) else buf[i]? := by
  induction ws generalizing buf with
  | nil => simp
  | cons w ws ih =>
    rw [List.foldl_cons, ih (fun w' hw' => hw w' (by simp [hw'])) _ (by rw [writeBlock_length]; exact hi)]
    have hcell : (writeBlock buf w)[i]? = if Covers w i then some (T[i]?) else buf[i]? := by
      unfold writeBlock
      rw [List.getElem?_mapIdx, List.getElem?_eq_getElem hi]
      simp only [Option.map_some]
      by_cases hc : Covers w i
      · have hc' : w.1 ≤ i ∧ i < w.1 + w.2.length := hc
        rw [if_pos hc, if_pos hc']
        have := hw w (by simp) (i - w.1) (by omega)
        rw [← this, show w.1 + (i - w.1) = i by omega]
      · have hc' : ¬ (w.1 ≤ i ∧ i < w.1 + w.2.length) := hc
        rw [if_neg hc, if_neg hc']
    rw [hcell]
    by_cases h1 : ∃ w' ∈ ws, Covers w' i
    · have : ∃ w' ∈ w :: ws, Covers w' i := by obtain ⟨w', h, h'⟩ := h1; exact ⟨w', by simp [h], h'⟩
      rw [if_pos h1, if_pos this]
    · rw [if_neg h1]
      by_cases h2 : Covers w i
      · rw [if_pos h2, if_pos ⟨w, by simp, h2⟩]
      · rw [if_neg h2, if_neg]
        rintro ⟨w', h, h'⟩
        rcases List.mem_cons.mp h with rfl | h
        · exact h2 h'
        · exact h1 ⟨w', h, h'⟩

theorem foldl_write_length {ρ : Type} (ws : List (Nat × List ρ)) (buf : List (Option ρ)) :
    (ws.foldl writeBlock buf).length = buf.length := by
  induction ws generalizing buf with
  | nil => rfl
  | cons w ws ih => rw [List.foldl_cons, ih, writeBlock_length]

/-- The chunk writes of one rank cover each of its rows exactly once. -/
theorem chunkWrites_spec {ρ : Type} (ns : List Nat) (off : Nat) (l : List ρ) (h : ns.sum = l.length) (T : List ρ)
    (hT : ∀ (k : Nat), k < l.length → T[off + k]? = l[k]?) :
    (∀ w ∈ chunkWrites off ns l, Agrees T w) ∧
    ∀ i, ((chunkWrites off ns l).filter (fun w => decide (Covers w i))).length =
      if off ≤ i ∧ i < off + l.length then 1 else 0 := by
  induction ns generalizing off l with
  | nil =>
    simp at h
    have : l = [] := List.length_eq_zero_iff.mp h.symm
    subst this
    simp [chunkWrites]
  | cons n ns ih =>
    simp only [List.sum_cons] at h
    obtain ⟨i1, i2⟩ := ih (off + n) (l.drop n) (by simp; omega) (by
      intro k hk
      simp at hk
      rw [List.getElem?_drop, ← hT (n + k) (by omega)]
      congr 1; omega)
    constructor
    · intro w hw
      simp only [chunkWrites, List.mem_cons] at hw
      rcases hw with rfl | hw
      · intro k hk
        simp only [List.length_take] at hk
        simp only
        rw [hT k (by omega), List.getElem?_take, if_pos (by omega)]
      · exact i1 w hw
    · intro i
      simp only [chunkWrites, List.filter_cons]
      have hlen : (l.take n).length = n := by simp; omega
      have := i2 i
      simp only [List.length_drop] at this
      by_cases hc : Covers (off, l.take n) i
      · simp only [hc, decide_true, if_true, List.length_cons, this]
        simp only [Covers, hlen] at hc
        have h1 : ¬ (off + n ≤ i ∧ i < off + n + (l.length - n)) := by omega
        have h2 : off ≤ i ∧ i < off + l.length := by omega
        simp [h1, h2]
      · simp only [hc, decide_false, Bool.false_eq_true, if_false, this]
        simp only [Covers, hlen] at hc
        by_cases h1 : off + n ≤ i ∧ i < off + n + (l.length - n)
        · have h2 : off ≤ i ∧ i < off + l.length := by omega
          simp [h1, h2]
        · have h2 : ¬ (off ≤ i ∧ i < off + l.length) := by omega
          simp [h1, h2]

/-- All ranks' writes, with the ranks before rank `k` done. -/
theorem allWrites_aux {ρ : Type} (D : List (List ρ)) (C : List (List Nat)) (hC : C.map List.sum = D.map List.length)
    (off : Nat) (T : List ρ) (hT : ∀ (k : Nat), k < D.flatten.length → T[off + k]? = D.flatten[k]?) :
    let W := (((D.zip C).mapIdx fun r p => chunkWrites (off + offset (D.map List.length) r) p.2 p.1)).flatten
    (∀ w ∈ W, Agrees T w) ∧ ∀ i, (W.filter (fun w => decide (Covers w i))).length =
      if off ≤ i ∧ i < off + D.flatten.length then 1 else 0 := by
  induction D generalizing C off with
  | nil =>
    simp
  | cons d D ih =>
    cases C with
    | nil => simp at hC
    | cons c C =>
      simp only [List.map_cons, List.cons.injEq] at hC
      obtain ⟨hc, hC⟩ := hC
      have hone := chunkWrites_spec c off d hc T (by
        intro k hk
        rw [hT k (by simp; omega), List.flatten_cons, List.getElem?_append_left hk])
      have hrest := ih C hC (off + d.length) (by
        intro k hk
        rw [Nat.add_assoc, hT (d.length + k) (by simp at hk ⊢; omega), List.flatten_cons,
          List.getElem?_append_right (by omega), Nat.add_sub_cancel_left])
      have hfun : (fun (r : Nat) (p : List ρ × List Nat) =>
          chunkWrites (off + offset ((d :: D).map List.length) (r + 1)) p.2 p.1) =
          (fun r p => chunkWrites (off + d.length + offset (D.map List.length) r) p.2 p.1) := by
        funext r p
        congr 1
        simp [offset, List.take_succ_cons]; omega
      simp only [List.zip_cons_cons, List.mapIdx_cons, List.flatten_cons]
      rw [hfun]
      have h00 : off + offset ((d :: D).map List.length) 0 = off := by simp [offset]
      rw [h00]
      simp only at hrest
      constructor
      · intro w hw
        rcases List.mem_append.mp hw with hw | hw
        · exact hone.1 w hw
        · exact hrest.1 w hw
      · intro i
        rw [List.filter_append, List.length_append, hone.2 i, hrest.2 i]
        simp only [List.length_append]
        by_cases h1 : off ≤ i ∧ i < off + d.length
        · have h2 : ¬ (off + d.length ≤ i ∧ i < off + d.length + D.flatten.length) := by omega
          have h3 : off ≤ i ∧ i < off + (d.length + D.flatten.length) := by omega
          rw [if_pos h1, if_neg h2, if_pos h3]
        · by_cases h2 : off + d.length ≤ i ∧ i < off + d.length + D.flatten.length
          · have h3 : off ≤ i ∧ i < off + (d.length + D.flatten.length) := by omega
            rw [if_neg h1, if_pos h2, if_pos h3]
          · have h3 : ¬ (off ≤ i ∧ i < off + (d.length + D.flatten.length)) := by omega
            rw [if_neg h1, if_neg h2, if_neg h3]

/-- C21, no overlap and no gap: every row of the file is written by exactly one write of exactly one rank. -/
theorem save_exactly_once {ρ : Type} (D : List (List ρ)) (C : List (List Nat))
    (hC : C.map List.sum = D.map List.length) (i : Nat) :
    ((allWrites D C).filter (fun w => decide (w.1 ≤ i ∧ i < w.1 + w.2.length))).length =
      if i < D.flatten.length then 1 else 0 := by
  have h := allWrites_aux D C hC 0 D.flatten (by simp)
  simp only [Nat.zero_add, Nat.zero_le, true_and] at h
  exact h.2 i

/-- C21: for every distribution, every chunking of every rank's array, and every order in which the chunks of all ranks
are written, the saved block is the global array; and a file catalog opened on it with any number of ranks has the
same global rows. -/
theorem save_read {ρ : Type} (D : List (List ρ)) (C : List (List Nat)) (hC : C.map List.sum = D.map List.length)
    (ws : List (Nat × List ρ)) (hws : ws.Perm (allWrites D C)) :
    savedBlock D ws = D.flatten.map some ∧
    ∀ P, 0 < P → (allRows (openFile (savedBlock D ws) P)).flatten = D.flatten.map some := by
  have h := allWrites_aux D C hC 0 D.flatten (by simp)
  simp only [Nat.zero_add, Nat.zero_le, true_and] at h
  have hlen : (D.map List.length).sum = D.flatten.length := by rw [List.length_flatten]
  have hblock : savedBlock D ws = D.flatten.map some := by
    apply List.ext_getElem?
    intro i
    unfold savedBlock
    rw [hlen]
    by_cases hi : i < D.flatten.length
    · rw [foldl_cell D.flatten ws (fun w hw => h.1 w (hws.mem_iff.mp hw)) _ i (by simpa using hi), if_pos]
      · rw [List.getElem?_map, List.getElem?_eq_getElem hi]; rfl
      · have := h.2 i
        rw [if_pos hi] at this
        obtain ⟨w, hw⟩ := List.exists_mem_of_length_pos (l := (allWrites D C).filter (fun w => decide (Covers w i)))
          (by unfold allWrites; omega)
        simp only [List.mem_filter, decide_eq_true_eq] at hw
        exact ⟨w, hws.mem_iff.mpr hw.1, hw.2⟩
    · rw [List.getElem?_eq_none_iff.mpr (by rw [foldl_write_length]; simpa using hi),
        List.getElem?_eq_none_iff.mpr (by rw [List.length_map]; omega)]
  exact ⟨hblock, fun P hP => by rw [(open_rows _ P hP).1, hblock]⟩

/-- Non-vacuity: three ranks, one empty, the chunks written backwards. -/
example : ([[1, 1], [], [1]] : List (List Nat)).map List.sum = ([[7, 8], [], [9]] : List (List Nat)).map List.length ∧
    savedBlock [[7, 8], [], [9]] (allWrites [[7, 8], [], [9]] [[1, 1], [], [1]]).reverse = [some 7, some 8, some 9] := by
  decide

end NBK.FileCat
