import Verif.CatMesh.Model
import Mathlib.Tactic.Linarith
import Mathlib.Tactic.Ring

/-!
# Which objects are painted (C127)
-/
set_option linter.unusedSimpArgs false
namespace NBK.CatMesh
variable {Pos : Type}

/-- The selected objects, for columns of the same length. -/
def objects (p : List Pos) (w v : List ℚ) (s : List Bool) : List (Row Pos) :=
  (p.zip (w.zip (v.zip s))).filterMap fun x => if x.2.2.2 then some ⟨x.1, x.2.1, x.2.2.1⟩ else none

/-- A mesh that holds arrays. -/
def colsOf (p : List Pos) (w v : Option (List ℚ)) (s : Option (List Bool)) : Cols Pos := ⟨some (.pos p), w.map .num, v.map .num, s.map .flag⟩

def ones (n : Nat) (o : Option (List ℚ)) : List ℚ := o.getD (List.replicate n 1)
def trues (n : Nat) (o : Option (List Bool)) : List Bool := o.getD (List.replicate n true)

def pick {α : Type} (s : List Bool) (l : List α) : List α := (l.zip s).filterMap fun p => if p.2 then some p.1 else none

theorem pick_true {α : Type} (l : List α) (n : Nat) (h : l.length = n) : pick (List.replicate n true) l = l := by
  subst h
  induction l with
  | nil => rfl
  | cons a l ih =>
    unfold pick at ih ⊢
    simp only [List.length_cons, List.replicate_succ, List.zip_cons_cons, List.filterMap_cons, if_true, ih]

theorem pick_ones {α : Type} (s : List Bool) (l : List α) (h : s.length = l.length) (a : ℚ) : pick s (List.replicate l.length a) = List.replicate (pick s l).length a := by
  induction l generalizing s with
  | nil => cases s <;> rfl
  | cons x l ih =>
    cases s with
    | nil => cases h
    | cons b s =>
      have := ih s (by simpa using h)
      unfold pick at this ⊢
      cases b <;> simp [List.replicate_succ, this]

theorem pick_len {α β : Type} (s : List Bool) (l : List α) (m : List β) (h : l.length = m.length) : (pick s l).length = (pick s m).length := by
  induction l generalizing s m with
  | nil => cases m with
    | nil => rfl
    | cons => cases h
  | cons x l ih =>
    cases m with
    | nil => cases h
    | cons y m =>
      cases s with
      | nil => rfl
      | cons b s =>
        have := ih s m (by simpa using h)
        unfold pick at this ⊢
        cases b <;> simp [this]

theorem zip_pick (p : List Pos) (w v : List ℚ) (s : List Bool) (hw : w.length = p.length) (hv : v.length = p.length) (hs : s.length = p.length) :
    List.zipWith (fun x (y : ℚ × ℚ) => (⟨x, y.1, y.2⟩ : Row Pos)) (pick s p) ((pick s w).zip (pick s v)) = objects p w v s := by
  induction p generalizing w v s with
  | nil => cases s <;> rfl
  | cons x p ih =>
    cases w with
    | nil => cases hw
    | cons a w =>
      cases v with
      | nil => cases hv
      | cons b v =>
        cases s with
        | nil => cases hs
        | cons t s =>
          have := ih w v s (by simpa using hw) (by simpa using hv) (by simpa using hs)
          unfold pick objects at this ⊢
          cases t <;> simp [this]

theorem part_len {α : Type} (i c : Nat) (l : List α) : (part i c l).length = min c (l.length - i) := by
  unfold part; simp

theorem part_zip {α β : Type} (i c : Nat) (l : List α) (m : List β) : (part i c l).zip (part i c m) = part i c (l.zip m) := by
  unfold part
  rw [List.zip_eq_zipWith, List.zip_eq_zipWith, List.drop_zipWith, List.take_zipWith]

theorem objects_part (i c : Nat) (p : List Pos) (w v : List ℚ) (s : List Bool) :
    objects (part i c p) (part i c w) (part i c v) (part i c s) =
      (part i c (p.zip (w.zip (v.zip s)))).filterMap fun x => if x.2.2.2 then some ⟨x.1, x.2.1, x.2.2.1⟩ else none := by
  unfold objects
  rw [part_zip, part_zip, part_zip]

theorem part_replicate {α : Type} (i c n : Nat) (a : α) : part i c (List.replicate n a) = List.replicate (min c (n - i)) a := by
  unfold part; simp

theorem index_pick {α : Type} (i c : Nat) (l : List α) (sel : Option (List Bool)) (n : Nat) (hl : l.length = n) (hs : ∀ s, sel = some s → s.length = n) :
    index (part i c l) (sel.map (part i c)) = .ok (pick (part i c (trues n sel)) (part i c l)) := by
  cases sel with
  | none =>
    simp only [Option.map_none, index, trues, Option.getD_none, part_replicate]
    rw [pick_true _ _ (by rw [part_len, hl])]
  | some s =>
    simp only [Option.map_some, index, trues, Option.getD_some]
    rw [if_pos (by rw [part_len, part_len, hl, hs s rfl])]
    rfl

theorem chunk_ok (i c : Nat) (p : List Pos) (w v : Option (List ℚ)) (s : Option (List Bool)) (hw : ∀ l, w = some l → l.length = p.length)
    (hv : ∀ l, v = some l → l.length = p.length) (hs : ∀ l, s = some l → l.length = p.length) :
    chunkRows i c p w v s = .ok (objects (part i c p) (part i c (ones p.length w)) (part i c (ones p.length v)) (part i c (trues p.length s))) := by
  have hsl : (part i c (trues p.length s)).length = (part i c p).length := by
    rw [part_len, part_len]
    cases s with
    | none => simp [trues]
    | some s => simp only [trues, Option.getD_some]; rw [hs s rfl]
  have hn : ∀ o : Option (List ℚ), (∀ l, o = some l → l.length = p.length) →
      numsIn (pick (part i c (trues p.length s)) (part i c p)).length i c (s.map (part i c)) o = .ok (pick (part i c (trues p.length s)) (part i c (ones p.length o))) := by
    intro o ho
    cases o with
    | none =>
      simp only [numsIn, ones, Option.getD_none]
      rw [part_replicate, ← part_len, pick_ones _ _ hsl]
    | some l =>
      simp only [numsIn, ones, Option.getD_some]
      rw [index_pick i c l s p.length (ho l rfl) hs]
  have hlen : ∀ o : Option (List ℚ), (∀ l, o = some l → l.length = p.length) → (part i c (ones p.length o)).length = (part i c p).length := by
    intro o ho
    rw [part_len, part_len]
    cases o with
    | none => simp [ones]
    | some l => simp only [ones, Option.getD_some]; rw [ho l rfl]
  unfold chunkRows
  dsimp only
  rw [index_pick i c p s p.length rfl hs]
  dsimp only [Except.bind]
  rw [hn v hv]
  dsimp only
  rw [hn w hw]
  dsimp only
  rw [if_pos ⟨pick_len _ _ _ (hlen w hw), pick_len _ _ _ (hlen v hv)⟩, zip_pick _ _ _ _ (hlen w hw) (hlen v hv) hsl]

theorem part_add {α : Type} (k c n : Nat) (l : List α) : part (k * c) ((n + 1) * c) l = part (k * c) c l ++ part ((k + 1) * c) (n * c) l := by
  unfold part
  rw [show (n + 1) * c = c + n * c by ring, List.take_add, List.drop_drop, show (k + 1) * c = k * c + c by ring]

theorem chunks_ok (c : Nat) (p : List Pos) (w v : Option (List ℚ)) (s : Option (List Bool)) (hw : ∀ l, w = some l → l.length = p.length)
    (hv : ∀ l, v = some l → l.length = p.length) (hs : ∀ l, s = some l → l.length = p.length) (n : Nat) (k : Nat) :
    chunksFrom c p w v s k n = .ok ((part (k * c) (n * c) (p.zip ((ones p.length w).zip ((ones p.length v).zip (trues p.length s))))).filterMap
      fun x => if x.2.2.2 then some ⟨x.1, x.2.1, x.2.2.1⟩ else none) := by
  induction n generalizing k with
  | zero => simp [chunksFrom, part]
  | succ n ih =>
    unfold chunksFrom
    rw [chunk_ok _ _ p w v s hw hv hs, ih (k + 1), part_add, List.filterMap_append, objects_part]
    rfl

theorem rowsOf_colsOf (c : Nat) (p : List Pos) (w v : Option (List ℚ)) (s : Option (List Bool)) :
    rowsOf c (colsOf p w v s) = chunksFrom c p w v s 0 ((p.length + c - 1) / c) := by
  unfold rowsOf colsOf
  cases w <;> cases v <;> cases s <;> rfl

/-- Columns of the same length: exactly the selected objects are painted, in order, whatever the size of a chunk. -/
theorem rows_spec (c : Nat) (hc : 0 < c) (p : List Pos) (w v : Option (List ℚ)) (s : Option (List Bool)) (hw : ∀ l, w = some l → l.length = p.length)
    (hv : ∀ l, v = some l → l.length = p.length) (hs : ∀ l, s = some l → l.length = p.length) :
    rowsOf c (colsOf p w v s) = .ok (objects p (ones p.length w) (ones p.length v) (trues p.length s)) := by
  rw [rowsOf_colsOf, chunks_ok c p w v s hw hv hs]
  have hn : p.length ≤ (p.length + c - 1) / c * c := by
    have h1 := Nat.div_add_mod (p.length + c - 1) c
    have h2 := Nat.mod_lt (p.length + c - 1) hc
    rw [Nat.mul_comm c] at h1
    omega
  unfold part objects
  rw [Nat.zero_mul, List.drop_zero, List.take_of_length_le]
  rw [List.length_zip]
  omega

theorem index_len {α : Type} (l x : List α) (s : Option (List Bool)) (h : index l s = .ok x) : ∀ t, s = some t → t.length = l.length := by
  intro t ht
  subst ht
  unfold index at h
  dsimp only at h
  by_contra hne
  rw [if_neg hne] at h
  cases h

theorem chunk_lens (i c : Nat) (p : List Pos) (w v : Option (List ℚ)) (s : Option (List Bool)) (r : List (Row Pos)) (h : chunkRows i c p w v s = .ok r) :
    (∀ l, w = some l → (part i c l).length = (part i c p).length) ∧ (∀ l, v = some l → (part i c l).length = (part i c p).length) ∧
      ∀ l, s = some l → (part i c l).length = (part i c p).length := by
  unfold chunkRows at h
  dsimp only at h
  cases h1 : index (part i c p) (s.map (part i c)) with
  | error => rw [h1] at h; cases h
  | ok x =>
    rw [h1] at h
    dsimp only [Except.bind] at h
    cases h2 : numsIn x.length i c (s.map (part i c)) v with
    | error => rw [h2] at h; cases h
    | ok y =>
      rw [h2] at h
      dsimp only at h
      cases h3 : numsIn x.length i c (s.map (part i c)) w with
      | error => rw [h3] at h; cases h
      | ok z =>
        rw [h3] at h
        dsimp only at h
        by_cases hl : z.length = x.length ∧ y.length = x.length
        · have hs : ∀ l, s = some l → (part i c l).length = (part i c p).length := by
            intro l hl
            exact index_len _ _ _ h1 _ (by rw [hl]; rfl)
          have key : ∀ (o : Option (List ℚ)) (y : List ℚ), numsIn x.length i c (s.map (part i c)) o = .ok y → y.length = x.length →
              ∀ l, o = some l → (part i c l).length = (part i c p).length := by
            intro o y ho hy l hl
            subst hl
            unfold numsIn at ho
            dsimp only at ho
            cases s with
            | none =>
              simp only [Option.map_none, index] at ho h1
              injection ho with ho
              injection h1 with h1
              rw [ho, h1, hy]
            | some t =>
              rw [← index_len _ _ _ ho _ rfl, hs t rfl]
          exact ⟨key w z h3 hl.1, key v y h2 hl.2, hs⟩
        · rw [if_neg hl] at h; cases h

theorem chunks_lens (c : Nat) (p : List Pos) (w v : Option (List ℚ)) (s : Option (List Bool)) (n : Nat) (k : Nat) (r : List (Row Pos))
    (h : chunksFrom c p w v s k n = .ok r) (j : Nat) (hj : k ≤ j) (hn : j < k + n) : ∃ r', chunkRows (j * c) c p w v s = .ok r' := by
  induction n generalizing k r with
  | zero => omega
  | succ n ih =>
    unfold chunksFrom at h
    cases h1 : chunkRows (k * c) c p w v s with
    | error => rw [h1] at h; cases h
    | ok x =>
      rw [h1] at h
      dsimp only [Except.bind] at h
      cases h2 : chunksFrom c p w v s (k + 1) n with
      | error => rw [h2] at h; cases h
      | ok y =>
        by_cases hk : j = k
        · exact ⟨x, by rw [hk, h1]⟩
        · exact ih (k + 1) y h2 (by omega) (by omega)

/-- The lengths that pass: those of the position; also longer ones if the number of objects is a multiple of the size of a chunk. -/
def fits (c n len : Nat) : Prop := len = n ∨ (c ∣ n ∧ n ≤ len)

theorem fits_of_parts {α β : Type} (c : Nat) (hc : 0 < c) (l : List α) (p : List β) (hp : 0 < p.length)
    (h : (part ((p.length - 1) / c * c) c l).length = (part ((p.length - 1) / c * c) c p).length) : fits c p.length l.length := by
  rw [part_len, part_len] at h
  have h1 := Nat.div_add_mod (p.length - 1) c
  have h2 := Nat.mod_lt (p.length - 1) hc
  rw [Nat.mul_comm c] at h1
  by_cases hd : c ∣ p.length
  · exact .inr ⟨hd, by omega⟩
  · left
    have : p.length - (p.length - 1) / c * c ≠ c := by
      intro he
      apply hd
      refine ⟨(p.length - 1) / c + 1, ?_⟩
      rw [Nat.mul_add, Nat.mul_one, Nat.mul_comm c]
      omega
    omega

theorem part_take {α : Type} (i c n : Nat) (l : List α) (h : i + c ≤ n) : part i c (l.take n) = part i c l := by
  unfold part
  rw [List.drop_take, List.take_take]
  congr 1
  omega

theorem index_take {α : Type} (i c n : Nat) (h : i + c ≤ n) (l : List α) (s : Option (List Bool)) :
    index (part i c l) ((s.map (List.take n)).map (part i c)) = index (part i c l) (s.map (part i c)) := by
  cases s with
  | none => rfl
  | some t => simp only [Option.map_some, part_take i c n t h]

theorem chunk_take (i c n : Nat) (p : List Pos) (w v : Option (List ℚ)) (s : Option (List Bool)) (h : i + c ≤ n) :
    chunkRows i c p (w.map (List.take n)) (v.map (List.take n)) (s.map (List.take n)) = chunkRows i c p w v s := by
  have hn : ∀ (m : Nat) (o : Option (List ℚ)), numsIn m i c ((s.map (List.take n)).map (part i c)) (o.map (List.take n)) = numsIn m i c (s.map (part i c)) o := by
    intro m o
    cases o with
    | none => rfl
    | some l => simp only [Option.map_some, numsIn, part_take i c n l h, index_take i c n h]
  unfold chunkRows
  simp only [hn, index_take i c n h]

theorem chunks_take (c n : Nat) (p : List Pos) (w v : Option (List ℚ)) (s : Option (List Bool)) (m k : Nat) (h : (k + m) * c ≤ n) :
    chunksFrom c p (w.map (List.take n)) (v.map (List.take n)) (s.map (List.take n)) k m = chunksFrom c p w v s k m := by
  induction m generalizing k with
  | zero => rfl
  | succ m ih =>
    unfold chunksFrom
    rw [ih (k + 1) (by rw [show k + 1 + m = k + (m + 1) by omega]; exact h), chunk_take]
    have : (k + (m + 1)) * c = k * c + c + m * c := by ring
    omega

/-- Longer columns are cut without a word when the chunks end with the positions. -/
theorem rows_cut (c : Nat) (hc : 0 < c) (p : List Pos) (hd : c ∣ p.length) (w v : Option (List ℚ)) (s : Option (List Bool)) :
    rowsOf c (colsOf p w v s) = rowsOf c (colsOf p (w.map (List.take p.length)) (v.map (List.take p.length)) (s.map (List.take p.length))) := by
  rw [rowsOf_colsOf, rowsOf_colsOf, chunks_take]
  obtain ⟨q, hq⟩ := hd
  rw [hq, Nat.zero_add, show c * q + c - 1 = c - 1 + c * q by omega, Nat.add_mul_div_left _ _ hc, Nat.div_eq_of_lt (by omega), Nat.zero_add, Nat.mul_comm]

/-- Painting is refused exactly when a column has a length that does not fit. -/
theorem rows_ok_iff (c : Nat) (hc : 0 < c) (p : List Pos) (w v : Option (List ℚ)) (s : Option (List Bool)) :
    (∃ r, rowsOf c (colsOf p w v s) = .ok r) ↔
      (∀ l, w = some l → fits c p.length l.length) ∧ (∀ l, v = some l → fits c p.length l.length) ∧ ∀ l, s = some l → fits c p.length l.length := by
  constructor
  · rintro ⟨r, h⟩
    rw [rowsOf_colsOf] at h
    by_cases hp : p.length = 0
    · have : ∀ n : Nat, fits c p.length n := fun n => .inr ⟨by rw [hp]; exact Nat.dvd_zero c, by omega⟩
      exact ⟨fun l _ => this _, fun l _ => this _, fun l _ => this _⟩
    · obtain ⟨r', h'⟩ := chunks_lens c p w v s _ 0 r h ((p.length - 1) / c) (Nat.zero_le _) (by
        rw [Nat.zero_add, show p.length + c - 1 = p.length - 1 + c by omega, Nat.add_div_right _ hc]; omega)
      obtain ⟨h1, h2, h3⟩ := chunk_lens _ _ _ _ _ _ _ h'
      exact ⟨fun l hl => fits_of_parts c hc l p (by omega) (h1 l hl), fun l hl => fits_of_parts c hc l p (by omega) (h2 l hl),
        fun l hl => fits_of_parts c hc l p (by omega) (h3 l hl)⟩
  · rintro ⟨h1, h2, h3⟩
    by_cases hd : c ∣ p.length
    · rw [rows_cut c hc p hd]
      have len : ∀ {α : Type} (o : Option (List α)), (∀ l, o = some l → fits c p.length l.length) → ∀ l, o.map (List.take p.length) = some l → l.length = p.length := by
        intro α o ho l hl
        cases o with
        | none => cases hl
        | some x =>
          injection hl with hl
          subst hl
          rw [List.length_take]
          rcases ho x rfl with h | ⟨_, h⟩ <;> omega
      exact ⟨_, rows_spec c hc p _ _ _ (len w h1) (len v h2) (len s h3)⟩
    · have len : ∀ {α : Type} (o : Option (List α)), (∀ l, o = some l → fits c p.length l.length) → ∀ l, o = some l → l.length = p.length := by
        intro α o ho l hl
        rcases ho l hl with h | ⟨h, _⟩
        · exact h
        · exact absurd h hd
      exact ⟨_, rows_spec c hc p _ _ _ (len w h1) (len v h2) (len s h3)⟩

/-- Case: four weights for two objects pass with chunks of two, not with chunks of three; the third weight for two objects does not pass with chunks of three. -/
theorem rows_case : rowsOf 2 (colsOf [10, 20] (some [3, 4, 5, 6]) none (some [false, true, true])) = .ok [⟨20, 4, 1⟩] ∧
    rowsOf 3 (colsOf [10, 20] (some [3, 4, 5, 6]) none none) = .error .valueError ∧
    rowsOf 3 (colsOf [10, 20] (some [3, 4]) (some [7, 8]) (some [true, true])) = .ok [⟨10, 3, 7⟩, ⟨20, 4, 8⟩] ∧
    rowsOf 1 (colsOf [10, 20] none none (some [true])) = .error .indexError := by
  refine ⟨?_, ?_, ?_, ?_⟩ <;> decide +kernel

end NBK.CatMesh
