import Verif.CatObj.RankProps

/-! # `CatalogSource` objects: concrete programs -/
set_option linter.unusedSimpArgs false
namespace NBK.CatObj
open NBK.Slicing (Index)

abbrev W := World Nat Unit Nat

def base0 : Cls Nat Unit := ⟨"CatalogSource", [], [("Selection", 1), ("Value", 1), ("Weight", 1)]⟩

/-- A class with a column of its own, read from the first array of the caller. -/
def withP : Cls Nat Unit := ⟨"WithP", [("P", fun _ => .buf 0)], [("Selection", 1), ("Value", 1), ("Weight", 1)]⟩

/-- A class with a column of three rows. -/
def withThree : Cls Nat Unit := ⟨"WithThree", [("T", fun _ => .const 3 7)], [("Selection", 1), ("Value", 1), ("Weight", 1)]⟩

def w0 : W := ⟨[], [], []⟩

/-- A catalog with the column `x`, and its array. -/
def start : List (Op Nat Unit Nat) := [.newBuf [10, 11, 12, 13, 14, 15, 16, 17, 18, 19], .new base0 () 10, .set 0 "x" (.buf 0)]

/-- C128: a small slice is computed from the array of the caller when it is asked for, although it was copied "to decouple it from the original data": it shows what was written
later. -/
theorem small_slice_follows :
    let w := run base0 w0 (start ++ [.slice 0 (.slice ⟨some 0, some 2, none⟩)])
    let w' := run base0 w [.poke 0 [90, 91, 92, 93, 94, 95, 96, 97, 98, 99]]
    small 2 10 = true ∧ w.rows 1 "x" = .ok [10, 11] ∧ w'.rows 1 "x" = .ok [90, 91] ∧ ∀ ops, TameRun base0 w ops → Wf (run base0 w ops) := by
  refine ⟨by decide +kernel, by decide +kernel, by decide +kernel, fun ops ht => ?_⟩
  refine wf_run base0 rfl ops _ (wf_run base0 rfl _ w0 wf_empty ?_) ht
  refine ⟨trivial, ?_, trivial, trivial, trivial⟩
  intro c f h
  cases h

/-- C128: default columns become ordinary ones in a copy and in a selection: `save` writes them. -/
theorem copy_saves_defaults :
    let w := run base0 w0 (start ++ [.touch 0, .copy 0, .slice 0 (.slice ⟨some 0, some 5, none⟩), .select 0 ["x", "Weight"]])
    w.saved 0 = ["x"] ∧ w.saved 1 = ["Selection", "Value", "Weight", "x"] ∧ w.saved 2 = ["x"] ∧ w.saved 3 = ["Weight", "x"] := by
  refine ⟨?_, ?_, ?_, ?_⟩ <;> decide +kernel

/-- C128: a catalog whose attributes were never used cannot be copied. -/
theorem copy_needs_attrs : (copy (run base0 w0 start) 0).toOption.isNone = true ∧ (copy (run base0 w0 (start ++ [.touch 0])) 0).toOption.isSome = true := by
  refine ⟨?_, ?_⟩ <;> decide +kernel

/-- C128: a catalog with a column called `size` cannot be sliced, and the column cannot be selected. -/
theorem reserved_names :
    let w := run base0 w0 (start ++ [.set 0 "size" (.scalar 4)])
    (w.rows 0 "size").toOption = some [4, 4, 4, 4, 4, 4, 4, 4, 4, 4] ∧
      (match slice w 0 (.slice ⟨some 0, some 2, none⟩) with | .error e => some e | .ok _ => none) = some .typeError ∧
      (match select base0 w 0 ["size"] with | .error e => some e | .ok _ => none) = some .typeError ∧ (select base0 w 0 ["x"]).toOption.isSome = true := by
  refine ⟨?_, ?_, ?_, ?_⟩ <;> decide +kernel

/-- C128: of the columns of a catalog those can be selected that are not called `cls`, `size` or `comm`. -/
theorem selectable {ρ δ V : Type} (plain : Cls ρ δ) {w : World ρ δ V} (hw : Wf w) (i : Nat) (hi : i < w.objs.length) (c : String) (hc : c ∈ w.columns i) :
    (∃ p, select plain w i [c] = .ok p) ↔ c ≠ "cls" ∧ c ≠ "size" ∧ c ≠ "comm" := by
  rw [select_ok_iff plain hw i [c] (by simp)]
  simp [hi, hc, reserved]

/-- C128: rows that do not exist can be asked of a catalog without columns of its own. -/
theorem rows_out_of_range :
    let w := run base0 w0 [.new base0 () 3]
    let w1 := run base0 w [.slice 0 (.ints [7, 8])]
    w1.size 1 = 2 ∧ w1.rows 1 "Weight" = .ok [1, 1] ∧ (slice (run base0 w [.set 0 "x" (.scalar 4)]) 0 (.ints [7, 8])).toOption.isNone = true := by
  refine ⟨?_, ?_, ?_⟩ <;> decide +kernel

/-- C128: a view made before the attributes are first used does not share them; one made after does; a slice does, a copy and a selection do not. -/
theorem attrs_by_order :
    let w := run base0 w0 (start ++ [.view 0 none, .attr 0 "a" 1, .view 0 none, .slice 0 (.slice ⟨some 0, some 5, none⟩), .copy 0, .select 0 ["x"], .attr 0 "b" 2])
    w.attrsOf 1 = [] ∧ w.attrsOf 0 = [("a", 1), ("b", 2)] ∧ w.attrsOf 2 = [("a", 1), ("b", 2)] ∧ w.attrsOf 3 = [("a", 1), ("b", 2)] ∧ w.attrsOf 4 = [("a", 1)] ∧
      w.attrsOf 5 = [("a", 1)] := by
  refine ⟨?_, ?_, ?_, ?_, ?_, ?_⟩ <;> decide +kernel

/-- C128: the column of a class is not cut: `get_hardcolumn` of a slice returns all rows, `[]` the ones that were asked for. -/
theorem hard_column_of_slice :
    let w := run base0 w0 [.newBuf [10, 11, 12], .new withP () 3, .slice 0 (.ints [2, 0])]
    w.rows 1 "P" = .ok [12, 10] ∧ ((w.hardColumn 1 "P").toOption.map fun c => c.eval w.bufs) = some [10, 11, 12] ∧ w.size 1 = 2 := by
  refine ⟨?_, ?_, ?_⟩ <;> decide +kernel

/-- C128: a view with a class that has columns of its own is not `Tame`: a copy of it has a column that is too short. -/
theorem typed_view_copy :
    let w := run base0 w0 (start ++ [.touch 0, .view 0 (some withThree), .copy 1])
    w.columns 1 = ["Selection", "Value", "Weight", "x"] ∧ w.columns 2 = ["Selection", "T", "Value", "Weight", "x"] ∧ w.size 2 = 10 ∧ w.rows 2 "T" = .ok [7, 7, 7] := by
  refine ⟨?_, ?_, ?_, ?_⟩ <;> decide +kernel

/-- C128: a slice of a view has the class of what the view was made from, a copy the class of the view. -/
theorem classes_of_views :
    let w := run base0 w0 (start ++ [.touch 0, .view 0 (some withP), .view 1 (some withThree), .slice 2 (.ints [0]), .slice 1 (.ints [0]), .copy 2])
    (w.objs.map fun o => o.cls.name) = ["CatalogSource", "WithP", "WithThree", "WithP", "CatalogSource", "WithThree"] := by
  decide +kernel

/-- C128: a column set through a view is seen by the catalog and by every other view, not by slices and copies made before. -/
theorem set_through_view :
    let w := run base0 w0 (start ++ [.touch 0, .view 0 none, .copy 0, .slice 1 (.slice ⟨some 0, some 2, none⟩), .set 1 "x" (.scalar 4), .view 0 none])
    w.rows 0 "x" = .ok (List.replicate 10 4) ∧ w.rows 4 "x" = .ok (List.replicate 10 4) ∧ w.rows 2 "x" = .ok [10, 11, 12, 13, 14, 15, 16, 17, 18, 19] ∧ w.rows 3 "x" = .ok [10, 11] := by
  refine ⟨?_, ?_, ?_, ?_⟩ <;> decide +kernel

/-- The outcome on all ranks, as a number, with the sizes. -/
def shown (o : Outcome Nat Unit Nat) : Nat × List (List Nat × List Nat) :=
  match o with
  | .ok ws => (0, ws.map fun w => ((List.range w.objs.length).map w.size, (List.range w.objs.length).map w.csize))
  | .raised => (1, [])
  | .stuck => (2, [])
  | .diverged => (3, [])

/-- C128: two ranks: slices of different lengths, a view, a copy; the sums are those of all ranks. -/
theorem two_ranks :
    shown (jointRun base0 [w0, w0] [[.new base0 () 2, .new base0 () 3], [.slice 0 (.ints [0]), .slice 0 (.ints [0, 2])], [.view 1 none, .view 1 none], [.touch 2, .touch 2], [.copy 2, .copy 2]]) =
      (0, [([2, 1, 1, 1], [5, 3, 3, 3]), ([3, 2, 2, 2], [5, 3, 3, 3])]) := by
  decide +kernel

/-- C128: a mask that fits on one rank only: that rank waits for ever. A copy that fails on one rank only: the others have an object more. -/
theorem one_rank_raises :
    shown (jointRun base0 [w0, w0] [[.new base0 () 2, .new base0 () 3], [.slice 0 (.mask [true, false]), .slice 0 (.mask [true, false])]]) = (2, []) ∧
      shown (jointRun base0 [w0, w0] [[.new base0 () 2, .new base0 () 3], [.touch 0, .newBuf []], [.copy 0, .copy 0]]) = (3, []) := by
  refine ⟨?_, ?_⟩ <;> decide +kernel

end NBK.CatObj
