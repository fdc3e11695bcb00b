import Verif.Csv.Model
import Verif.FileIO.Props

/-! # CSV files: properties C27 and C28 -/
set_option linter.unusedSimpArgs false
set_option linter.unusedSectionVars false
namespace NBK.Csv
variable {β : Type} [DecidableEq β]

/-! ## C27: blocks -/

theorem seekDelim_mono (nl : β) (bytes : List β) (p q : Nat) (h : p ≤ q) : seekDelim nl bytes p ≤ seekDelim nl bytes q := by
  unfold seekDelim
  by_cases hp : p = 0
  · simp [hp]
  · rw [if_neg hp, if_neg (by omega)]
    have hd : bytes.drop q = (bytes.drop p).drop (q - p) := by rw [List.drop_drop]; congr 1; omega
    rcases h1 : (bytes.drop p).findIdx? (· == nl) with _ | i
    · rcases h2 : (bytes.drop q).findIdx? (· == nl) with _ | j
      · simp only; omega
      · exfalso
        rw [List.findIdx?_eq_none_iff] at h1
        obtain ⟨h3, h4, _⟩ := List.findIdx?_eq_some_iff_getElem.mp h2
        have hm : ∀ x ∈ bytes.drop q, x ∈ bytes.drop p := by
          intro x hx
          rw [hd] at hx
          exact List.mem_of_mem_drop hx
        have := h1 (bytes.drop q)[j] (hm _ (List.getElem_mem h3))
        rw [this] at h4
        cases h4
    · obtain ⟨a1, a2, a3⟩ := List.findIdx?_eq_some_iff_getElem.mp h1
      simp only [List.length_drop] at a1
      rcases h2 : (bytes.drop q).findIdx? (· == nl) with _ | j
      · simp only; omega
      · obtain ⟨b1, b2, b3⟩ := List.findIdx?_eq_some_iff_getElem.mp h2
        simp only
        by_contra hcon
        have := a3 (q - p + j) (by omega)
        apply this
        simp only [List.getElem_drop] at b2 ⊢
        rw [← b2]
        congr 1
        · congr 1; omega

theorem seekDelim_ge (nl : β) (bytes : List β) (p : Nat) (h : bytes.length ≤ p) : bytes.length ≤ seekDelim nl bytes p := by
  unfold seekDelim
  split
  · omega
  · rw [List.drop_of_length_le h]; simp

/-- The end of a block is the start of the file, the end of the file, or behind a newline. -/
theorem seekDelim_cut (nl : β) (bytes : List β) (p : Nat) :
    seekDelim nl bytes p = 0 ∨ bytes.length ≤ seekDelim nl bytes p ∨
      (0 < seekDelim nl bytes p ∧ bytes[seekDelim nl bytes p - 1]? = some nl) := by
  unfold seekDelim
  split
  · exact Or.inl rfl
  · rcases h1 : (bytes.drop p).findIdx? (· == nl) with _ | i
    · right; left; simp
    · right; right
      obtain ⟨a1, a2, a3⟩ := List.findIdx?_eq_some_iff_getElem.mp h1
      simp only [List.length_drop] at a1
      refine ⟨by simp, ?_⟩
      simp only [List.getElem_drop, beq_iff_eq] at a2
      simp only [Nat.add_sub_cancel]
      rw [List.getElem?_eq_getElem (by omega), a2]

theorem windows {α : Type} (l : List α) (f : Nat → Nat) (hf : ∀ k, f k ≤ f (k + 1)) (n : Nat) :
    ((List.range n).map fun k => (l.take (f (k + 1))).drop (f k)).flatten = (l.take (f n)).drop (f 0) := by
  have hmono : ∀ k, f 0 ≤ f k := by
    intro k
    induction k with
    | zero => exact Nat.le_refl _
    | succ k ih => exact Nat.le_trans ih (hf k)
  induction n with
  | zero => simp
  | succ n ih =>
    rw [List.range_succ, List.map_append, List.flatten_append, ih]
    simp only [List.map_cons, List.map_nil, List.flatten_cons, List.flatten_nil, List.append_nil]
    have h1 : l.take (f n) = (l.take (f (n + 1))).take (f n) := by rw [List.take_take, Nat.min_eq_left (hf n)]
    rw [h1]
    generalize l.take (f (n + 1)) = m
    have h2 := List.take_append_drop (f n) m
    conv_rhs => rw [← h2]
    rw [List.drop_append]
    by_cases hl : f n ≤ m.length
    · have : f 0 - (m.take (f n)).length = 0 := by
        rw [List.length_take]; have := hmono n; omega
      rw [this, List.drop_zero]
    · rw [List.drop_of_length_le (show m.length ≤ f n by omega)]; simp

theorem blocks_eq (nl : β) (bytes : List β) (bs : Nat) :
    blocks nl bytes bs = (List.range ((bytes.length + bs - 1) / bs)).map fun k =>
      (bytes.take (seekDelim nl bytes ((k + 1) * bs))).drop (seekDelim nl bytes (k * bs)) := by
  unfold blocks offsets readBlock
  rw [List.map_map]
  apply List.map_congr_left
  intro k _
  simp only [Function.comp]
  rw [show k * bs + bs = (k + 1) * bs by rw [Nat.add_mul]; omega]

theorem last_offset (n bs : Nat) (hbs : 0 < bs) : n ≤ ((n + bs - 1) / bs) * bs := by
  have h1 := Nat.div_add_mod (n + bs - 1) bs
  have h2 := Nat.mod_lt (n + bs - 1) hbs
  rw [Nat.mul_comm] at h1
  generalize ((n + bs - 1) / bs) * bs = q at *
  omega

/-- C27, tiling: the blocks are disjoint, in order and cover the file. -/
theorem blocks_flatten (nl : β) (bytes : List β) (bs : Nat) (hbs : 0 < bs) : (blocks nl bytes bs).flatten = bytes := by
  rw [blocks_eq, windows bytes (fun k => seekDelim nl bytes (k * bs))
    (fun k => seekDelim_mono nl bytes _ _ (Nat.mul_le_mul_right _ (by omega)))]
  rw [List.take_of_length_le (seekDelim_ge nl bytes _ (last_offset _ _ hbs))]
  simp [seekDelim]

/-- A block is empty, ends with a newline, or nothing is left behind it. -/
def LineEnd (nl : β) (b : List β) : Prop := b = [] ∨ b.getLast? = some nl

theorem window_lineEnd (nl : β) (bytes : List β) (p q : Nat) :
    LineEnd nl ((bytes.take (seekDelim nl bytes q)).drop (seekDelim nl bytes p)) ∨ bytes.length ≤ seekDelim nl bytes q := by
  rcases seekDelim_cut nl bytes q with h | h | ⟨h0, h⟩
  · left; left; rw [h]; simp
  · exact Or.inr h
  · left
    by_cases hle : seekDelim nl bytes q ≤ seekDelim nl bytes p
    · left; apply List.drop_eq_nil_of_le; simp; omega
    · right
      obtain ⟨hlt, hval⟩ := List.getElem?_eq_some_iff.mp h
      rw [List.getLast?_drop, if_neg (by rw [List.length_take]; omega), List.getLast?_eq_getElem?, List.length_take,
        Nat.min_eq_left (by omega), List.getElem?_take, if_pos (by omega), h]

theorem lines_append (nl : β) (a b : List β) (h : LineEnd nl a) : lines nl (a ++ b) = lines nl a ++ lines nl b := by
  induction a with
  | nil => simp [lines]
  | cons c a ih =>
    rcases h with h | h
    · cases h
    · cases a with
      | nil =>
        simp at h
        subst h
        simp [lines]
      | cons d a =>
        have h' : LineEnd nl (d :: a) := Or.inr (by rw [List.getLast?_cons_cons] at h; exact h)
        have := ih h'
        rw [List.cons_append, lines, lines]
        split
        · rw [this]; rfl
        · rw [this]
          have hne : lines nl (d :: a) ≠ [] := by
            rw [lines]; split
            · simp
            · split <;> simp
          obtain ⟨l, ls, he⟩ := List.exists_cons_of_ne_nil hne
          rw [he]
          rfl

/-- C27, lines: every line of the file is a line of exactly one block: the lines of the blocks, one block after the
other, are the lines of the file; only the last non-empty block may lack a final newline. -/
theorem blocks_lines (nl : β) (bytes : List β) (bs : Nat) (hbs : 0 < bs) :
    ((blocks nl bytes bs).map (lines nl)).flatten = lines nl bytes := by
  have key : ∀ n, ((((List.range n).map fun k =>
      (bytes.take (seekDelim nl bytes ((k + 1) * bs))).drop (seekDelim nl bytes (k * bs))).map (lines nl)).flatten =
      lines nl (bytes.take (seekDelim nl bytes (n * bs)))) := by
    intro n
    induction n with
    | zero => simp [seekDelim, lines]
    | succ n ih =>
      rw [List.range_succ, List.map_append, List.map_append, List.flatten_append, ih]
      simp only [List.map_cons, List.map_nil, List.flatten_cons, List.flatten_nil, List.append_nil]
      have hm := seekDelim_mono nl bytes (n * bs) ((n + 1) * bs) (Nat.mul_le_mul_right _ (by omega))
      have hsplit : bytes.take (seekDelim nl bytes ((n + 1) * bs)) = bytes.take (seekDelim nl bytes (n * bs)) ++
          (bytes.take (seekDelim nl bytes ((n + 1) * bs))).drop (seekDelim nl bytes (n * bs)) := by
        conv_lhs => rw [← List.take_append_drop (seekDelim nl bytes (n * bs)) (bytes.take (seekDelim nl bytes ((n + 1) * bs)))]
        rw [List.take_take, Nat.min_eq_left hm]
      rcases window_lineEnd nl bytes 0 (n * bs) with h | h
      · have h0 : seekDelim nl bytes 0 = 0 := by simp [seekDelim]
        rw [h0, List.drop_zero] at h
        conv_rhs => rw [hsplit]
        rw [lines_append nl _ _ h]
      · have e : (bytes.take (seekDelim nl bytes ((n + 1) * bs))).drop (seekDelim nl bytes (n * bs)) = [] := by
          apply List.drop_eq_nil_of_le; simp; omega
        conv_rhs => rw [hsplit]
        rw [e]; simp [lines]
  rw [blocks_eq, key, List.take_of_length_le (seekDelim_ge nl bytes _ (last_offset _ _ hbs))]

/-- Every block but the last ends at a line end. -/
theorem blocks_lineEnd (nl : β) (bytes : List β) (bs : Nat) (init : List (List β)) (last : List β)
    (h : blocks nl bytes bs = init ++ [last]) (hl : last ≠ []) : ∀ b ∈ init, LineEnd nl b := by
  intro b hb
  obtain ⟨i, hi, rfl⟩ := List.mem_iff_getElem.mp hb
  have hlen : (blocks nl bytes bs).length = init.length + 1 := by rw [h]; simp
  have e1 : (blocks nl bytes bs)[i]? = some init[i] := by
    rw [h, List.getElem?_append_left hi, List.getElem?_eq_getElem hi]
  have e2 : (blocks nl bytes bs)[init.length]? = some last := by
    rw [h, List.getElem?_append_right (Nat.le_refl _)]; simp
  rw [blocks_eq] at e1 e2 hlen
  simp only [List.length_map, List.length_range] at hlen
  rw [List.getElem?_map, List.getElem?_range (by omega)] at e1 e2
  simp only [Option.map_some, Option.some.injEq] at e1 e2
  rcases window_lineEnd nl bytes (i * bs) ((i + 1) * bs) with h1 | h1
  · rw [e1] at h1; exact h1
  · exfalso
    apply hl
    rw [← e2]
    apply List.drop_eq_nil_of_le
    have := seekDelim_mono nl bytes ((i + 1) * bs) (init.length * bs) (Nat.mul_le_mul_right _ (by omega))
    simp; omega

/-- Non-vacuity: a file of 7 bytes in blocks of 3; the middle line is longer than a block. -/
example : blocks 0 [1, 0, 2, 2, 2, 2, 0, 3] 3 = [[1, 0, 2, 2, 2, 2, 0], [], [3]] := by decide

/-! ## C28: counting rows -/

/-- Number of complete (terminated) non-empty lines; `atStart` tells whether the current line is still empty. -/
def fullLines (nl : β) (atStart : Bool) : List β → Nat
  | [] => 0
  | c :: cs => if c = nl then (if atStart then 0 else 1) + fullLines nl true cs else fullLines nl false cs

/-- No three newlines in a row. -/
def NoTriple (nl : β) (b : List β) : Prop := ∀ x y, b ≠ x ++ [nl, nl, nl] ++ y

theorem NoTriple.tail {nl : β} {c : β} {b : List β} (h : NoTriple nl (c :: b)) : NoTriple nl b := by
  intro x y e
  exact h (c :: x) y (by simp [e])

theorem fullLines_head (nl : β) (b : List β) (h : b.head? ≠ some nl) : fullLines nl true b = fullLines nl false b := by
  cases b with
  | nil => rfl
  | cons c b =>
    simp at h
    simp [fullLines, h]

theorem count_spec (nl : β) : ∀ (b : List β), NoTriple nl b →
    (b.count nl : Int) - countDD nl b = fullLines nl false b
  | [], _ => rfl
  | [c], _ => by
    by_cases hc : c = nl
    · subst hc; simp [fullLines, countDD]
    · simp [fullLines, countDD, hc]
  | c :: d :: rest, h => by
    by_cases hc : c = nl
    · subst hc
      by_cases hd : d = c
      · subst hd
        have hr : rest.head? ≠ some d := by
          intro e
          obtain ⟨r, rfl⟩ : ∃ r, rest = d :: r := by
            cases rest with
            | nil => cases e
            | cons x r => simp at e; subst e; exact ⟨r, rfl⟩
          exact h [] r (by simp)
        have ih := count_spec d rest h.tail.tail
        have := fullLines_head d rest hr
        simp only [countDD, fullLines, and_self, if_true, Bool.false_eq_true, if_false, this, List.count_cons_self]
        push_cast
        omega
      · have ih := count_spec c (d :: rest) h.tail
        have := fullLines_head c (d :: rest) (by simpa using hd)
        rw [countDD, if_neg (by simp [hd]), fullLines, if_pos rfl]
        rw [List.count_cons_self, this]
        rw [if_neg (by decide)]
        push_cast
        omega
    · have ih := count_spec nl (d :: rest) h.tail
      rw [countDD, if_neg (by simp [hc]), fullLines, if_neg hc, List.count_cons_of_ne (by simpa using hc)]
      exact ih

/-- The unterminated last line. -/
def openEnd (nl : β) (b : List β) : Nat := if b = [] ∨ b.getLast? = some nl then 0 else 1

theorem openEnd_cons (nl : β) (c d : β) (b : List β) : openEnd nl (c :: d :: b) = openEnd nl (d :: b) := by
  unfold openEnd
  simp [List.getLast?_cons_cons]

theorem lines_count (nl : β) : ∀ b : List β, (lines nl b).length = b.count nl + openEnd nl b
  | [] => rfl
  | [c] => by
    by_cases hc : c = nl
    · subst hc; simp [lines, openEnd]
    · simp [lines, openEnd, hc]
  | c :: d :: b => by
    have ih := lines_count nl (d :: b)
    rw [openEnd_cons, lines]
    by_cases hc : c = nl
    · subst hc; simp [ih, List.count_cons_self]; omega
    · rw [if_neg hc, List.count_cons_of_ne (by simpa using hc), ← ih]
      have hne : lines nl (d :: b) ≠ [] := by
        rw [lines]; split
        · simp
        · split <;> simp
      obtain ⟨l, ls, he⟩ := List.exists_cons_of_ne_nil hne
      rw [he]; rfl

theorem nonblank_aux (nl : β) : ∀ b : List β,
    ((lines nl b).filter (· != [])).length = fullLines nl true b + openEnd nl b ∧
    ((((lines nl b).drop 1).filter (· != [])).length + (if b = [] then 0 else 1) = fullLines nl false b + openEnd nl b)
  | [] => ⟨rfl, rfl⟩
  | [c] => by
    by_cases hc : c = nl
    · subst hc; simp [lines, openEnd, fullLines]
    · simp [lines, openEnd, fullLines, hc]
  | c :: d :: b => by
    obtain ⟨ih1, ih2⟩ := nonblank_aux nl (d :: b)
    rw [openEnd_cons, lines]
    by_cases hc : c = nl
    · subst hc
      have e1 : fullLines c true (c :: d :: b) = fullLines c true (d :: b) := by
        rw [fullLines, if_pos rfl, if_pos rfl, Nat.zero_add]
      have e2 : fullLines c false (c :: d :: b) = 1 + fullLines c true (d :: b) := by
        rw [fullLines, if_pos rfl]; rfl
      rw [e1, e2, if_pos rfl]
      simp only [List.drop_succ_cons, List.drop_zero]
      rw [List.filter_cons_of_neg (by simp)]
      simp only [reduceCtorEq, if_false]
      omega
    · have e1 : ∀ s, fullLines nl s (c :: d :: b) = fullLines nl false (d :: b) := fun s => by
        rw [fullLines, if_neg hc]
      rw [if_neg hc, e1, e1]
      have hne : lines nl (d :: b) ≠ [] := by
        rw [lines]; split
        · simp
        · split <;> simp
      obtain ⟨l, ls, he⟩ := List.exists_cons_of_ne_nil hne
      rw [he] at ih1 ih2 ⊢
      simp only [List.drop_succ_cons, List.drop_zero] at ih2 ⊢
      rw [List.filter_cons_of_pos (by simp)]
      simp at ih2 ⊢
      omega

/-- Number of non-empty lines. -/
theorem nonblank_count (nl : β) (b : List β) :
    ((lines nl b).filter (· != [])).length = fullLines nl true b + openEnd nl b := (nonblank_aux nl b).1

/-- What a block must look like for its rows to be counted right. -/
def GoodBlock (nl : β) (skipBlank first : Bool) (skip : Nat) (b : List β) : Prop :=
  (skipBlank = true → NoTriple nl b ∧ (first = false → b.head? ≠ some nl) ∧
    ∀ l ∈ (lines nl b).take skip, l ≠ []) ∧
  skip ≤ (lines nl b).length

theorem blockCount_good (nl : β) (skipBlank first : Bool) (skip : Nat) (b : List β)
    (h : GoodBlock nl skipBlank first skip b) :
    ((dataLines nl skipBlank b skip).length : Int) = blockCount nl skipBlank first skip b + openEnd nl b := by
  obtain ⟨h1, h2⟩ := h
  have hl := lines_count nl b
  cases skipBlank with
  | false =>
    unfold dataLines blockCount
    simp
    omega
  | true =>
    obtain ⟨n1, n2, n3⟩ := h1 rfl
    have hc := count_spec nl b n1
    have hn := nonblank_count nl b
    have hd : ((lines nl b).filter (· != [])).length = skip + (dataLines nl true b skip).length := by
      conv_lhs => rw [← List.take_append_drop skip (lines nl b), List.filter_append, List.length_append]
      have e : ((lines nl b).take skip).filter (· != []) = (lines nl b).take skip := by
        rw [List.filter_eq_self]
        intro l hl
        simpa using n3 l hl
      rw [e, List.length_take, Nat.min_eq_left h2]
      unfold dataLines
      simp
    unfold blockCount
    simp only [if_true]
    by_cases hh : b.head? = some nl
    · have hf : first = true := by
        cases first with
        | true => rfl
        | false => exact absurd hh (n2 rfl)
      subst hf
      obtain ⟨r, rfl⟩ : ∃ r, b = nl :: r := by
        cases b with
        | nil => cases hh
        | cons x r => simp at hh; subst hh; exact ⟨r, rfl⟩
      have e1 : fullLines nl false (nl :: r) = 1 + fullLines nl true (nl :: r) := by simp [fullLines]
      simp only [List.head?_cons, beq_self_eq_true, Bool.and_self, if_true]
      omega
    · have := fullLines_head nl b hh
      have e : (first && b.head? == some nl) = false := by
        simp [hh]
      rw [e]
      simp only [Bool.false_eq_true, if_false]
      omega

/-- The rows of all blocks; only the first block skips rows. -/
def allRows (nl : β) (skipBlank : Bool) (skip : Nat) : List (List β) → List (List β)
  | [] => []
  | b :: bs => dataLines nl skipBlank b skip ++ allRows nl skipBlank 0 bs

/-- What all blocks must look like. -/
def GoodBlocks (nl : β) (skipBlank : Bool) : Bool → Nat → List (List β) → Prop
  | _, _, [] => True
  | first, skip, b :: bs =>
    GoodBlock nl skipBlank first skip b ∧ (if bs = [] then b ≠ [] else LineEnd nl b) ∧ GoodBlocks nl skipBlank false 0 bs

/-- `nrows` does not fall on the end of a block (except the end of the file), and is not one less than the rows of a file
without final newline. -/
def GoodNrows (nl : β) (skipBlank : Bool) (skip : Nat) (n : Int) : List (List β) → Prop
  | [] => True
  | b :: bs =>
    0 < n ∧ (if bs = [] then n ≠ (dataLines nl skipBlank b skip).length - (openEnd nl b : Int) ∨ openEnd nl b = 0
      else n < (dataLines nl skipBlank b skip).length ∨ GoodNrows nl skipBlank 0 (n - (dataLines nl skipBlank b skip).length) bs)

theorem loop_spec (nl : β) (skipBlank : Bool) (bl : List (List β)) (first : Bool) (skip : Nat) (nrows : Option Int)
    (hg : GoodBlocks nl skipBlank first skip bl) (hn : ∀ n, nrows = some n → GoodNrows nl skipBlank skip n bl) :
    (∀ p ∈ partitionLoop nl skipBlank first skip nrows bl, p.2 = ((parse nl skipBlank p.1).length : Int)) ∧
    ((partitionLoop nl skipBlank first skip nrows bl).map fun p => parse nl skipBlank p.1).flatten =
      (match nrows with
       | none => allRows nl skipBlank skip bl
       | some n => (allRows nl skipBlank skip bl).take n.toNat) := by
  induction bl generalizing first skip nrows with
  | nil => cases nrows <;> simp [partitionLoop, allRows]
  | cons b bs ih =>
    obtain ⟨g1, g2, g3⟩ := hg
    have hc := blockCount_good nl skipBlank first skip b g1
    have hfin : (if bs = [] ∧ b.getLast? ≠ some nl then blockCount nl skipBlank first skip b + 1
        else blockCount nl skipBlank first skip b) = ((dataLines nl skipBlank b skip).length : Int) := by
      by_cases hbs : bs = []
      · rw [if_pos hbs] at g2
        unfold openEnd at hc
        by_cases hl : b.getLast? = some nl
        · rw [if_pos (Or.inr hl)] at hc
          rw [if_neg (by simp [hl])]
          simp at hc
          exact hc.symm
        · rw [if_neg (by simp [g2, hl])] at hc
          rw [if_pos ⟨hbs, hl⟩]
          simp at hc
          exact hc.symm
      · rw [if_neg hbs] at g2
        rw [if_neg (by simp [hbs])]
        have : openEnd nl b = 0 := if_pos g2
        rw [this] at hc
        simp at hc
        exact hc.symm
    cases nrows with
    | none =>
      obtain ⟨i1, i2⟩ := ih false 0 none g3 (fun n h => by cases h)
      simp only [partitionLoop]
      rw [hfin]
      constructor
      · intro p hp
        rcases List.mem_cons.mp hp with rfl | hp
        · rfl
        · exact i1 p hp
      · rw [List.map_cons, List.flatten_cons, i2]
        rfl
    | some n =>
      have hn0 := hn n rfl
      obtain ⟨k1, k2⟩ := hn0
      simp only [partitionLoop]
      rw [hfin, if_pos k1]
      by_cases hbs : bs = []
      · subst hbs
        rw [if_pos rfl] at k2
        by_cases hlt : n < blockCount nl skipBlank first skip b
        · rw [if_pos hlt]
          have hle : n.toNat ≤ (dataLines nl skipBlank b skip).length := by omega
          constructor
          · intro p hp
            rw [List.mem_singleton] at hp
            subst hp
            simp only [parse, List.length_take]
            omega
          · simp [parse, allRows]
        · rw [if_neg hlt]
          have hge : (dataLines nl skipBlank b skip).length ≤ n.toNat := by
            have h01 : openEnd nl b = 0 ∨ openEnd nl b = 1 := by unfold openEnd; split <;> simp
            omega
          simp only [partitionLoop]
          constructor
          · intro p hp
            rw [List.mem_singleton] at hp
            subst hp
            simp only [parse, List.length_take]
            omega
          · simp [parse, allRows]
      · rw [if_neg hbs] at g2 k2
        have hoe : openEnd nl b = 0 := if_pos g2
        have hbc : blockCount nl skipBlank first skip b = ((dataLines nl skipBlank b skip).length : Int) := by
          rw [hoe] at hc; simp at hc; exact hc.symm
        rw [hbc]
        by_cases hlt : n < ((dataLines nl skipBlank b skip).length : Int)
        · rw [if_pos hlt]
          constructor
          · intro p hp
            rw [List.mem_singleton] at hp
            subst hp
            simp only [parse, List.length_take]
            omega
          · simp only [List.map_cons, List.map_nil, List.flatten_cons, List.flatten_nil, List.append_nil, parse, allRows]
            rw [List.take_append_of_le_length (by omega)]
        · rw [if_neg hlt]
          have k2 := k2.resolve_left hlt
          obtain ⟨i1, i2⟩ := ih false 0 (some (n - (dataLines nl skipBlank b skip).length)) g3
            (fun m h => by cases h; exact k2)
          constructor
          · intro p hp
            rcases List.mem_cons.mp hp with rfl | hp
            · simp only [parse, List.length_take]
              omega
            · exact i1 p hp
          · rw [List.map_cons, List.flatten_cons, i2]
            simp only [parse, allRows]
            rw [List.take_append, List.take_of_length_le (by omega)]
            congr 2
            omega

theorem allRows_eq (nl : β) (skipBlank : Bool) (bytes : List β) (bl : List (List β))
    (hb : (bl.map (lines nl)).flatten = lines nl bytes) (skip : Nat)
    (hs : ∀ b, bl.head? = some b → skip ≤ (lines nl b).length) (hne : bl ≠ []) :
    allRows nl skipBlank skip bl = dataLines nl skipBlank bytes skip := by
  have h0 : ∀ bl : List (List β), allRows nl skipBlank 0 bl =
      ((bl.map (lines nl)).flatten).filter fun l => !skipBlank || l != [] := by
    intro bl
    induction bl with
    | nil => rfl
    | cons b bl ih => simp only [allRows, ih, dataLines, List.drop_zero, List.map_cons, List.flatten_cons, List.filter_append]
  obtain ⟨b, bs, rfl⟩ := List.exists_cons_of_ne_nil hne
  have := hs b rfl
  rw [allRows, h0]
  unfold dataLines
  rw [← hb, List.map_cons, List.flatten_cons, List.drop_append_of_le_length this, List.filter_append]

/-- C28 (partial): for every content, block size, `skiprows` and `nrows` satisfying the conditions on the blocks
(no three newlines in a row and no block but the first starting with a newline when blank lines are skipped; the last block
not empty; the skipped rows are non-empty lines of the first block; `nrows` not on a block end), the size of every partition
is the number of rows parsed from it, and these rows together are the rows pandas reads from the whole file. -/
theorem csv_sizes_partial (nl : β) (bytes : List β) (bs : Nat) (hbs : 0 < bs) (skipBlank : Bool) (skip : Nat)
    (nrows : Option Int) (hne : bytes ≠ [])
    (hg : GoodBlocks nl skipBlank true skip (blocks nl bytes bs))
    (hn : ∀ n, nrows = some n → GoodNrows nl skipBlank skip n (blocks nl bytes bs)) :
    (∀ p ∈ makePartitions nl bytes bs skipBlank skip nrows, p.2 = ((parse nl skipBlank p.1).length : Int)) ∧
    ((makePartitions nl bytes bs skipBlank skip nrows).map fun p => parse nl skipBlank p.1).flatten =
      parse nl skipBlank ⟨bytes, skip, nrows⟩ ∧
    csvSize (makePartitions nl bytes bs skipBlank skip nrows) = ((parse nl skipBlank ⟨bytes, skip, nrows⟩).length : Int) := by
  have hbl : blocks nl bytes bs ≠ [] := by
    intro h
    have := blocks_flatten nl bytes bs hbs
    rw [h] at this
    exact hne this.symm
  obtain ⟨h1, h2⟩ := loop_spec nl skipBlank (blocks nl bytes bs) true skip nrows hg hn
  have hs : ∀ b, (blocks nl bytes bs).head? = some b → skip ≤ (lines nl b).length := by
    intro b hb
    obtain ⟨b', bl, he⟩ := List.exists_cons_of_ne_nil hbl
    rw [he] at hg hb
    simp at hb
    subst hb
    exact hg.1.2
  have h3 := allRows_eq nl skipBlank bytes _ (blocks_lines nl bytes bs hbs) skip hs hbl
  have h4 : ((makePartitions nl bytes bs skipBlank skip nrows).map fun p => parse nl skipBlank p.1).flatten =
      parse nl skipBlank ⟨bytes, skip, nrows⟩ := by
    unfold makePartitions
    rw [h2, h3]
    cases nrows <;> rfl
  refine ⟨h1, h4, ?_⟩
  rw [← h4, List.length_flatten, List.map_map]
  unfold csvSize
  have : ∀ L : List (Part β × Int), (∀ p ∈ L, p.2 = ((parse nl skipBlank p.1).length : Int)) →
      (L.map Prod.snd).sum = (((L.map (List.length ∘ fun p => parse nl skipBlank p.1)).sum : Nat) : Int) := by
    intro L
    induction L with
    | nil => intro _; rfl
    | cons p L ih =>
      intro h
      simp only [List.map_cons, List.sum_cons, Function.comp]
      rw [ih (fun q hq => h q (by simp [hq])), h p (by simp)]
      push_cast
      rfl
  exact this _ h1

/-- C27 and C28, reading: under the same conditions `read` returns the requested rows of the file, for all
`0 ≤ start ≤ stop ≤ size`. -/
theorem csv_read_partial (nl : β) (bytes : List β) (bs : Nat) (hbs : 0 < bs) (skipBlank : Bool) (skip : Nat)
    (nrows : Option Int) (hne : bytes ≠ [])
    (hg : GoodBlocks nl skipBlank true skip (blocks nl bytes bs))
    (hn : ∀ n, nrows = some n → GoodNrows nl skipBlank skip n (blocks nl bytes bs))
    (start stop : Nat) (hss : start ≤ stop) (hst : stop ≤ (parse nl skipBlank ⟨bytes, skip, nrows⟩).length) (step : Int) :
    csvRead nl skipBlank (makePartitions nl bytes bs skipBlank skip nrows) start stop step =
      FileIO.everyStep (((parse nl skipBlank ⟨bytes, skip, nrows⟩).take stop).drop start) step := by
  obtain ⟨h1, h2, h3⟩ := csv_sizes_partial nl bytes bs hbs skipBlank skip nrows hne hg hn
  have hpe : makePartitions nl bytes bs skipBlank skip nrows ≠ [] := by
    unfold makePartitions
    have hbl : blocks nl bytes bs ≠ [] := by
      intro h
      have := blocks_flatten nl bytes bs hbs
      rw [h] at this
      exact hne this.symm
    obtain ⟨b, bl, he⟩ := List.exists_cons_of_ne_nil hbl
    rw [he]
    cases nrows with
    | none => simp [partitionLoop]
    | some n => simp only [partitionLoop]; split <;> (try split) <;> simp
  unfold csvRead
  generalize makePartitions nl bytes bs skipBlank skip nrows = ps at *
  rw [← h2] at hst ⊢
  apply FileIO.stack_reads _ _ (by simpa using hpe) _ _ start stop hss hst
  · simp only [List.map_map]
    apply List.map_congr_left
    intro p hp
    simp only [Function.comp]
    rw [h1 p hp]
    simp
  · intro k n rd rows hk hr
    rw [List.getElem?_map] at hk hr
    cases hp : ps[k]? with
    | none => rw [hp] at hk; cases hk
    | some p =>
      rw [hp] at hk hr
      simp only [Option.map_some, Option.some.injEq, Prod.mk.injEq] at hk hr
      obtain ⟨_, rfl⟩ := hk
      subst hr
      intro a b _ _
      simp only
      rw [PySlice.pySlice_nat]

/-- Non-vacuity: two lines, an empty line in between, no final newline, blocks of 5 bytes, one row skipped, `nrows` 3. -/
example : GoodBlocks 0 true true 1 (blocks 0 [1, 0, 2, 0, 0, 3, 0, 4] 5) ∧
    GoodNrows 0 true 1 3 (blocks 0 [1, 0, 2, 0, 0, 3, 0, 4] 5) ∧
    parse 0 true ⟨[1, 0, 2, 0, 0, 3, 0, 4], 1, some 3⟩ = [[2], [3], [4]] := by
  have e : blocks 0 [1, 0, 2, 0, 0, 3, 0, 4] 5 = [[1, 0, 2, 0, 0, 3, 0], [4]] := by decide
  rw [e]
  refine ⟨⟨⟨fun _ => ⟨?_, by decide, by decide⟩, by decide⟩, by simp [LineEnd],
    ⟨fun _ => ⟨?_, by decide, by decide⟩, by decide⟩, by simp, trivial⟩, ?_, by decide⟩
  · intro x y h
    have := congrArg List.length h
    simp at this
    rcases x with _ | ⟨a1, _ | ⟨a2, _ | ⟨a3, _ | ⟨a4, _ | ⟨a5, x⟩⟩⟩⟩⟩ <;> simp at h this
    omega
  · intro x y h
    have := congrArg List.length h
    simp at this
    omega
  · refine ⟨by decide, ?_⟩
    rw [if_neg (by simp)]
    right
    exact ⟨by decide, by rw [if_pos rfl]; decide⟩

/-! ## C28 is false in general: witnesses (newline is 0, `skip_blank_lines=True`) -/

/-- Three newlines in a row: 2 rows, but the size is 3. -/
theorem csv_triple_newline_wrong : csvSize (makePartitions 0 [1, 0, 0, 0, 2, 0] 100 true 0 none) = 3 ∧
    (parse 0 true ⟨[1, 0, 0, 0, 2, 0], 0, none⟩).length = 2 := by decide

/-- A last line reaching over the last block start: 2 rows, but the size is 3. -/
theorem csv_phantom_row : csvSize (makePartitions 0 [1, 0, 2, 2, 2, 2, 0] 4 true 0 none) = 3 ∧
    (parse 0 true ⟨[1, 0, 2, 2, 2, 2, 0], 0, none⟩).length = 2 := by decide

/-- A blank line at the start of a later block: 3 rows, but the size is 4. -/
theorem csv_blank_at_block_start : csvSize (makePartitions 0 [1, 1, 0, 0, 2, 2, 2, 2, 0, 3] 2 true 0 none) = 4 ∧
    (parse 0 true ⟨[1, 1, 0, 0, 2, 2, 2, 2, 0, 3], 0, none⟩).length = 3 := by decide

/-- `nrows` equal to the rows of the first block: all later rows are counted although `nrows` excludes them. -/
theorem csv_nrows_wrong : csvSize (makePartitions 0 [1, 0, 2, 0, 3, 0, 4, 0, 5] 3 true 0 (some 2)) = 5 ∧
    (parse 0 true ⟨[1, 0, 2, 0, 3, 0, 4, 0, 5], 0, some 2⟩).length = 2 := by decide

/-- No final newline and `nrows` one less than the rows: the size is one too large. -/
theorem csv_nrows_open_end : csvSize (makePartitions 0 [1, 0, 2] 100 true 0 (some 1)) = 2 ∧
    (parse 0 true ⟨[1, 0, 2], 0, some 1⟩).length = 1 := by decide

/-- `skiprows` beyond the first block: the size of the first block is negative and the rows are not those of the file. -/
theorem csv_skiprows_wrong : makePartitions 0 [1, 0, 2, 0, 3, 0, 4, 0, 5] 5 true 4 none =
      [(⟨[1, 0, 2, 0, 3, 0], 4, none⟩, -1), (⟨[4, 0, 5], 0, none⟩, 2)] ∧
    parse 0 true ⟨[1, 0, 2, 0, 3, 0, 4, 0, 5], 4, none⟩ = [[5]] := by decide

end NBK.Csv
