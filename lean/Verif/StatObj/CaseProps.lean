import Verif.StatObj.SetProps
set_option linter.unusedSimpArgs false
/-!
# C123: cases
-/
namespace NBK.StatObj
open NBK.PySlice

/-- Whole numbers and `nan`. -/
instance : Num (Option Int) where
  zero := some 0
  fin v := v.isSome
  mid a b := match a, b with
    | some a, some b => some ((a + b) / 2)
    | _, _ => none

/-- A spectrum with two bins of `k` and three of `mu`, a `nan` among the powers, and a box size. -/
def base : List (Op (Option Int)) :=
  [.array [some 0, some 2, some 4], .array [some 0, some 10, some 20, some 30],
   .records [[some 1, some 7], [some 2, some 7], [none, some 7], [some 4, some 8], [some 5, some 8], [some 6, some 9]], .box (some 100),
   .init ["k", "mu"] [⟨0, [0, 1, 2]⟩, ⟨1, [0, 1, 2, 3]⟩] ⟨0, [0, 1, 2, 3, 4, 5], [("power", 0), ("modes", 1)], 2⟩ [2, 3] 0 [("BoxSize", 0)]]

/-- The world after a program, and what object `i` shows. -/
def after (ops : List (Op (Option Int))) : World (Option Int) := run (World.start _) ops
def shown (ops : List (Op (Option Int))) (i : Nat) : Option (Obs (Option Int)) := ((after ops).stats[i]?).map (obs (after ops))

theorem base_case : shown base 0 = some ⟨["k", "mu"], [("k", [some 0, some 2, some 4]), ("mu", [some 0, some 10, some 20, some 30])],
    [("k", [some 1, some 3]), ("mu", [some 5, some 15, some 25])],
    [("power", [some 1, some 2, none, some 4, some 5, some 6]), ("modes", [some 7, some 7, some 7, some 8, some 8, some 9])],
    [false, false, true, false, false, false], [("BoxSize", some 100)], []⟩ := by decide +kernel

/-- What a part of the object shows. -/
def colOf (ops : List (Op (Option Int))) (i : Nat) (name : String) : Option (List (Option Int)) := (shown ops i).bind fun o => get name o.cols
def edgeOf (ops : List (Op (Option Int))) (i : Nat) (dim : String) : Option (List (Option Int)) := (shown ops i).bind fun o => get dim o.edges
def attrOf (ops : List (Op (Option Int))) (i : Nat) (k : String) : Option (Option Int) := (shown ops i).bind fun o => get k o.attrs
def varsOf (ops : List (Op (Option Int))) (i : Nat) : Option (List String) := (shown ops i).map fun o => o.cols.map Prod.fst
def result (ops : List (Op (Option Int))) (o : Op (Option Int)) : Option Err := match step (after ops) o with
  | .ok _ => none
  | .error e => some e

/-- `sub = st[:, 1:3]`. -/
def sliced : List (Op (Option Int)) := base ++ [.getItem 0 [.sl ⟨none, none, none⟩, .sl ⟨some 1, some 3, none⟩]]

/-- C123 fails in general: what is written into a slice is written into the original, and so for its mask. -/
theorem not_independent_slices :
    colOf sliced 1 "power" = some [some 2, none, some 5, some 6] ∧
    colOf (sliced ++ [.writeVar 1 "power" 0 (some 50)]) 0 "power" = some [some 1, some 50, none, some 4, some 5, some 6] ∧
    ((shown (sliced ++ [.writeMask 1 3 true]) 0).map Obs.mask) = some [false, false, true, false, false, true] := by
  refine ⟨?_, ?_, ?_⟩ <;> decide +kernel

/-- C123: after a variable of the slice is set the two are independent. -/
theorem setItem_cuts : colOf (sliced ++ [.setItem 1 "modes" [some 0, some 0, some 0, some 0], .writeVar 1 "power" 0 (some 50)]) 0 "power" = colOf sliced 0 "power" ∧
    colOf (sliced ++ [.setItem 1 "modes" [some 0, some 0, some 0, some 0], .writeVar 1 "power" 0 (some 50)]) 1 "power" = some [some 50, none, some 5, some 6] := by
  refine ⟨?_, ?_⟩ <;> decide +kernel

/-- `sub = st[['power']]`. -/
def named (l : List String) : List (Op (Option Int)) := base ++ [.getNames 0 l]

/-- C123 fails for a selection of variables in the same way. -/
theorem not_independent_names : colOf (named ["power"] ++ [.writeVar 1 "power" 0 (some 50)]) 0 "power" =
    some [some 50, some 2, none, some 4, some 5, some 6] := by decide +kernel

/-- C123 fails for setting a variable of a selection: the gap left by the other variable becomes a variable, ... -/
theorem gap_becomes_variable : varsOf (named ["power"]) 1 = some ["power"] ∧
    varsOf (named ["power"] ++ [.setItem 1 "ratio" (List.replicate 6 (some 1))]) 1 = some ["power", "f1", "ratio"] := by
  refine ⟨?_, ?_⟩ <;> decide +kernel

/-- ... a variable behind a gap cannot be set, ... -/
theorem gap_refused : varsOf (named ["modes"]) 1 = some ["modes"] ∧
    result (named ["modes"]) (.setItem 1 "modes" (List.replicate 6 (some 1))) = some .valueError := by
  refine ⟨?_, ?_⟩ <;> decide +kernel

/-- ... and nothing can be set when the variables were selected in another order; -/
theorem order_refused : varsOf (named ["modes", "power"]) 1 = some ["modes", "power"] ∧
    result (named ["modes", "power"]) (.setItem 1 "ratio" (List.replicate 6 (some 1))) = some .valueError := by
  refine ⟨?_, ?_⟩ <;> decide +kernel

/-- The place of the variable among the names is not its place in the description: here `modes` is dropped in place of `ratio`, and numpy refuses
two fields of the same name. -/
theorem wrong_place : result (base ++ [.setItem 0 "ratio" (List.replicate 6 (some 1)), .getNames 0 ["modes", "ratio"]])
    (.setItem 1 "ratio" (List.replicate 6 (some 1))) = some .valueError := by decide +kernel

/-- C123 fails for the edges: those of a copy are those of the original; those of a selection are not. -/
theorem not_independent_edges : edgeOf (base ++ [.copy 0, .writeEdge 1 "k" 1 (some 3)]) 0 "k" = some [some 0, some 3, some 4] ∧
    edgeOf (sliced ++ [.writeEdge 1 "k" 1 (some 3)]) 0 "k" = some [some 0, some 2, some 4] ∧
    edgeOf (sliced ++ [.writeEdge 1 "k" 1 (some 3)]) 1 "k" = some [some 0, some 3, some 4] := by
  refine ⟨?_, ?_, ?_⟩ <;> decide +kernel

/-- C123 fails for values of `attrs` changed in place. An entry that is set is set in the one object. -/
theorem not_independent_attrs : attrOf (base ++ [.copy 0, .mutAttr 1 "BoxSize" (some 5)]) 0 "BoxSize" = some (some 5) ∧
    attrOf (base ++ [.copy 0, .setAttr 1 "BoxSize" (some 5)]) 0 "BoxSize" = some (some 100) ∧
    attrOf (base ++ [.copy 0, .setAttr 1 "BoxSize" (some 5)]) 1 "BoxSize" = some (some 5) := by
  refine ⟨?_, ?_, ?_⟩ <;> decide +kernel

/-- The second object is made like the first. -/
def two : List (Op (Option Int)) := base ++ [.init ["k", "mu"] [⟨0, [0, 1, 2]⟩, ⟨1, [0, 1, 2, 3]⟩] ⟨0, [0, 1, 2, 3, 4, 5], [("power", 0), ("modes", 1)], 2⟩ [2, 3] 0 []]

/-- C123 fails for `_fields_to_sum`: the default list is one for all the objects, and a slice has the list of the original; a copy has its own. -/
theorem not_independent_fsum : (shown (two ++ [.appendSum 0 "modes"]) 1).map Obs.fsum = some ["modes"] ∧
    (shown (sliced ++ [.appendSum 1 "modes"]) 0).map Obs.fsum = some ["modes"] ∧
    (shown (base ++ [.copy 0, .appendSum 1 "modes"]) 0).map Obs.fsum = some [] := by
  refine ⟨?_, ?_, ?_⟩ <;> decide +kernel

/-- A program that meets the hypotheses of `independent_partial` and of `setItem_always_partial`. -/
def apart : List (Op (Option Int)) :=
  base ++ [.copy 0, .getItem 0 [.int 1], .take 1 [[0, 1], [0, 2]], .fromState 2, .reindex 0 "mu" [some 0, some 30] [[some 2, some 7], [some 5, some 8]],
    .getItem 0 [.lst [1], .sl ⟨none, none, some 2⟩], .squeeze 6 "k", .rename 1 "modes" "n", .setItem 3 "power" [some 1, none, some 3, some 4]]

theorem apart_case : (∀ o ∈ apart, o.isView = false) ∧ (after apart).stats.length = 8 ∧ colOf apart 2 "power" = some [some 4, some 5, some 6] ∧
    colOf apart 4 "modes" = some [some 8, some 8, some 9] ∧ colOf apart 6 "power" = some [some 4, some 6] ∧ varsOf apart 1 = some ["power", "n"] ∧
    (shown apart 3).map Obs.mask = some [false, true, false, false] ∧ varsOf apart 3 = some ["modes", "power"] := by
  refine ⟨?_, ?_, ?_, ?_, ?_, ?_, ?_, ?_⟩ <;> decide +kernel

/-- The conclusion of `independent_partial` for it. -/
theorem apart_kept : ∀ j st, j ≠ 3 → (after apart).stats[j]? = some st → ∀ w', step (after apart) (.writeVar 3 "power" 0 (some 50)) = .ok w' →
    w'.stats[j]? = some st ∧ obs w' st = obs (after apart) st := fun j st hj hs w' hw =>
  independent_partial apart apart_case.1 3 j (Ne.symm hj) _ st w' (Or.inl ⟨_, _, _, rfl⟩) hs hw

end NBK.StatObj
