import Verif.CsvObj.CaseProps
set_option linter.unusedSimpArgs false
/-!
# C114: the separator, the engine 'python' and names that are not columns
-/
namespace NBK.CsvObj
open NBK.FileIO
variable {β : Type} [DecidableEq β]

/-- C114: a separator that is given is used even if `delim_whitespace=True`; otherwise fields are separated by blanks, or by commas with
`delim_whitespace=False`. -/
theorem open_sep (nl : β) (split : Sep → List β → List Cell) (bytes : List β) (names : List String) (g : Cfg) (o : File β)
    (h : openCsv nl split bytes names g = .ok o) :
    (∀ s, g.sep = some s → o.sep = .by s) ∧ (g.sep = none → g.delimWhitespace = true → o.sep = .white) ∧
    (g.sep = none → g.delimWhitespace = false → o.sep = .by ",") := by
  have hs := (open_fields nl split bytes names g o h).2.2.2.1
  refine ⟨fun s hg => ?_, fun hg hd => ?_, fun hg hd => ?_⟩ <;> rw [hs, sepOf] <;> simp [hg, *]

/-- C114: a name that is not a column is an IndexError. -/
theorem column_unknown (nl : β) (split : Sep → List β → List Cell) (o : File β) (c : String) (i : Index) (h : c ∉ o.dtype.map Prod.fst) :
    column nl split o c i = .error .indexError := by
  have : dictGet o.dtype c = none := by
    unfold dictGet
    rw [Option.map_eq_none_iff, List.find?_eq_none]
    intro p hp hc
    exact h (List.mem_map.mpr ⟨p, hp, by simpa using hc⟩)
  unfold column
  rw [this]

/-- C114: the pieces read by the engine 'python' are joined: whole numbers become floats in a column that has a float in any piece and no text
in any; every other entry is left alone. -/
theorem promote_entry (rows : List (List Item)) (w : Nat) (hw : ∀ r ∈ rows, r.length = w) (i k : Nat) (r : List Item) (x : Item)
    (hr : rows[i]? = some r) (hx : r[k]? = some x) :
    (promote rows).length = rows.length ∧ ∃ r' y, (promote rows)[i]? = some r' ∧ r'.length = w ∧ r'[k]? = some y ∧
      ((∀ n, x ≠ .i n) → y = x) ∧
      ((∃ s ∈ rows, ∃ t, s[k]? = some (.obj t)) → y = x) ∧
      ((∀ s ∈ rows, s[k]? ≠ some .nan ∧ ∀ q, s[k]? ≠ some (.f q)) → y = x) ∧
      (∀ n, x = .i n → (∃ s ∈ rows, s[k]? = some .nan ∨ ∃ q, s[k]? = some (.f q)) → (∀ s ∈ rows, ∀ t, s[k]? ≠ some (.obj t)) → y = .f n) := by
  have hrm : r ∈ rows := List.mem_of_getElem? hr
  have hk : k < r.length := (List.getElem?_eq_some_iff.mp hx).1
  have hget : r.getD k .nan = x := by rw [List.getD_eq_getElem?_getD, hx]; rfl
  have hall : ∀ s ∈ rows, ∃ z, s[k]? = some z ∧ s.getD k .nan = z := fun s hs => by
    have : k < s.length := by rw [hw s hs, ← hw r hrm]; exact hk
    exact ⟨s[k], List.getElem?_eq_getElem this, by rw [List.getD_eq_getElem?_getD, List.getElem?_eq_getElem this]; rfl⟩
  refine ⟨by simp [promote], (List.range r.length).map fun k => if floatColumn rows k then (r.getD k .nan).toFloat else r.getD k .nan,
    (if floatColumn rows k then (r.getD k .nan).toFloat else r.getD k .nan), ?_, ?_, ?_, ?_, ?_, ?_, ?_⟩
  · simp [promote, hr]
  · simp [hw r hrm]
  · simp [List.getElem?_range hk]
  · intro hn
    rw [hget]
    split
    · cases x with
      | i n => exact absurd rfl (hn n)
      | _ => rfl
    · rfl
  · rintro ⟨s, hs, t, ht⟩
    have : floatColumn rows k = false := by
      unfold floatColumn
      rw [Bool.and_eq_false_iff]
      right
      rw [Bool.not_eq_false', List.any_eq_true]
      refine ⟨s, hs, ?_⟩
      rw [List.getD_eq_getElem?_getD, ht]
      rfl
    rw [this, hget]
    rfl
  · intro hno
    have : floatColumn rows k = false := by
      unfold floatColumn
      rw [Bool.and_eq_false_iff]
      left
      rw [List.any_eq_false]
      intro s hs
      obtain ⟨z, hz, hg⟩ := hall s hs
      rw [hg]
      cases z with
      | f q => exact absurd hz ((hno s hs).2 q)
      | nan => exact absurd hz (hno s hs).1
      | _ => simp [Item.isFloat]
    rw [this, hget]
    rfl
  · rintro n rfl ⟨s, hs, hf⟩ hobj
    have : floatColumn rows k = true := by
      unfold floatColumn
      rw [Bool.and_eq_true]
      refine ⟨List.any_eq_true.mpr ⟨s, hs, ?_⟩, ?_⟩
      · rcases hf with h | ⟨q, h⟩ <;> rw [List.getD_eq_getElem?_getD, h] <;> rfl
      · rw [Bool.not_eq_true', List.any_eq_false]
        intro s hs
        obtain ⟨z, hz, hg⟩ := hall s hs
        rw [hg]
        cases z with
        | obj t => exact absurd hz (hobj s hs t)
        | _ => simp [Item.isObj]
    rw [this, hget]
    rfl

/-- The engine 'python': the first block holds whole numbers and the second a float, so that the joined column is one of floats; read alone, the
first block is not. -/
theorem python_promotes :
    look (file [[.int 1], [.int 2], [.flt (5 / 2)]]) ["x"] { engine := .python, blocksize := 3, dtype := .str .f8 } "x" (.slice ⟨none, none, none⟩) =
      .ok ([("x", .f8)], 3, .ok [.f 1, .f 2, .f (5 / 2)]) ∧
    look (file [[.int 1], [.int 2], [.flt (5 / 2)]]) ["x"] { engine := .python, blocksize := 3, dtype := .str .f8 } "x" (.int 0) =
      .ok ([("x", .f8)], 3, .ok [.bits (.i 1)]) ∧
    look (file [[.int 1], [.int 2], [.flt (5 / 2)]]) ["x"] {} "y" (.int 0) = .ok ([("x", .f8)], 3, .error .indexError) := by
  refine ⟨?_, ?_, ?_⟩ <;> decide +kernel

end NBK.CsvObj
