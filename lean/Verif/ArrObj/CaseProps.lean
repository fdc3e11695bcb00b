import Verif.ArrObj.StateProps

/-!
# C121: ranks that disagree, and concrete catalogs
-/
set_option linter.unusedSimpArgs false
namespace NBK.ArrObj

variable {ρ : Type}

/-- **Ranks that disagree** about names or types, each of them with usable data: the first rank raises a ValueError, and all others wait for ever; none of them learns of the
mismatch. -/
theorem mismatch_stuck (m0 : Mem ρ) (s0 : Src) (ms : List (Mem ρ × Src)) (kw : List (String × Nat)) (hd : ∃ p ∈ ms, p.2.dtype p.1 ≠ s0.dtype m0)
    (hs : ∀ p ∈ ms, ∃ n, sizeOf p.1 p.2 = .ok n) : afterGather ((m0, s0) :: ms) kw = .raised .valueError :: ms.map fun _ => .stuck := by
  have h0 : alone ((m0, s0) :: ms) 0 m0 s0 = .error .valueError := by
    unfold alone
    rw [if_pos]
    obtain ⟨p, hp, hne⟩ := hd
    exact ⟨rfl, List.any_eq_true.2 ⟨p, List.mem_cons_of_mem _ hp, by simpa using hne⟩⟩
  unfold afterGather
  dsimp only
  rw [if_neg]
  · rw [List.mapIdx_cons, List.map_cons]
    dsimp only
    rw [h0]
    congr 1
    apply List.ext_getElem?
    intro i
    simp only [List.getElem?_map, List.getElem?_mapIdx, Option.map_map]
    cases hi : ms[i]? with
    | none => rfl
    | some p =>
      obtain ⟨n, hn⟩ := hs p (List.mem_of_getElem? hi)
      have : alone ((m0, s0) :: ms) (i + 1) p.1 p.2 = .ok n := by
        unfold alone
        rw [if_neg (fun h => by simp at h), hn]
      simp [this]
  · rw [List.mapIdx_cons, List.all_cons]
    dsimp only
    rw [h0]
    simp [Except.toBool]

/-- A rank given an array without fields raises at once; every rank with good data waits for ever. -/
theorem plain_stuck (args : List (Mem ρ × Data)) (kw : List (String × Nat)) (h : ∃ p ∈ args, p.2 = .plain) :
    new args kw = args.map fun p => if p.2 = .plain then .raised .valueError else .stuck := by
  unfold new
  rw [mapM_none args h]
  apply List.map_congr_left
  intro p _
  cases hp : p.2 <;> rfl

/-! ## Cases -/

def a0 : Arr Nat := ⟨"f8(3)", [1, 2, 3]⟩
def a1 : Arr Nat := ⟨"f8", [10, 20, 30]⟩
def a2 : Arr Nat := ⟨"f8", [7, 8]⟩
def a3 : Arr Nat := ⟨"i4", [0, 0, 0]⟩

/-- Four arrays, a dictionary of the first two, one of the first and the third, one with another type. -/
def mem : Mem Nat := ⟨fun i => ([a0, a1, a2, a3][i]?).getD a0,
  fun d => ([[("Position", 0), ("Mass", 1)], [("Position", 0), ("Mass", 2)], [("Position", 0), ("Mass", 3)], []][d]?).getD []⟩

def Outcome.view : Outcome → String ⊕ (List String × Nat × Nat)
  | .done o => .inr (o.names, o.size, o.csize)
  | .raised e => .inl (match e with | .valueError => "ValueError" | .keyError => "KeyError" | .indexError => "IndexError" | .assertionError => "AssertionError")
  | .stuck => .inl "stuck"

/-- Two ranks; a dictionary and a structured array of the same columns go together; columns of two lengths, other types, no columns, no fields. -/
theorem new_cases :
    (new [(mem, .dict 0), (mem, .fields [("Mass", 1), ("Position", 0)])] []).map Outcome.view =
      [.inr (["Mass", "Position"], 3, 6), .inr (["Mass", "Position"], 3, 6)] ∧
    (new [(mem, .dict 0), (mem, .dict 1)] []).map Outcome.view = [.inl "stuck", .inl "ValueError"] ∧
    (new [(mem, .dict 0), (mem, .dict 2)] []).map Outcome.view = [.inl "ValueError", .inl "stuck"] ∧
    (new [(mem, .dict 3), (mem, .dict 3)] []).map Outcome.view = [.inl "IndexError", .inl "IndexError"] ∧
    (new [(mem, .dict 0), (mem, .plain)] []).map Outcome.view = [.inl "stuck", .inl "ValueError"] := by
  refine ⟨?_, ?_, ?_, ?_, ?_⟩ <;> decide +kernel

def st0 : State Nat := State.start mem ⟨.dict 0, ["Mass", "Position"], 3, 3, [("L", 5)]⟩ 1

def State.rows (st : State Nat) (c : String) : Except Err (List Nat) := (st.read c).map fun a => a.content.eval st.mem

/-- **A column whose length is not the size**: replacing an array of the dictionary by a shorter one is not noticed. -/
theorem dict_breaks_size : ((st0.run [.putDict 0 "Mass" 2]).rows "Mass").toOption = some [7, 8] ∧ (st0.run [.putDict 0 "Mass" 2]).obj.size = 3 := by
  constructor <;> decide +kernel

/-- A column that exists by name, and cannot be read. -/
theorem dict_breaks_column : "Mass" ∈ (st0.run [.delDict 0 "Mass"]).columns ∧ ((st0.run [.delDict 0 "Mass"]).rows "Mass").toOption = none := by
  constructor <;> decide +kernel

/-- Writing into the array of the caller changes the column, and the columns made from it. -/
theorem write_seen : ((st0.run [.access "Mass", .setCol "M2" (.acc 0), .writeArr 1 [5, 5, 5]]).rows "M2").toOption = some [5, 5, 5] := by decide +kernel

/-- Attributes: set on the accessor, copied by an index, lost when it is assigned. -/
theorem attrs_case :
    (((st0.run [.access "Mass", .accAttr 0 "unit" 9, .index 0 [2, 0], .setCol "M2" (.acc 0)]).accs[1]?).map fun a => (a.attrs "unit", a.content.eval mem)) = some (some 9, [30, 10]) ∧
    ((st0.run [.access "Mass", .accAttr 0 "unit" 9, .setCol "M2" (.acc 0)]).saved ["M2", "Weight", "Mass"]).toOption.map (List.map fun x => (x.1, x.2.1, x.2.2 "unit")) =
      some [("M2", [10, 20, 30], none), ("Mass", [10, 20, 30], none)] := by
  constructor <;> decide +kernel

/-- Persisting: a default column becomes an ordinary one. -/
theorem persist_case :
    (st0.persist none).toOption.map (fun p => (p.names, p.size, p.cols "Weight", p.cols "Mass")) =
      some (["Mass", "Position", "Selection", "Value", "Weight"], 3, some [1, 1, 1], some [10, 20, 30]) ∧
    ((st0.saved st0.columns).toOption.map (List.map fun x => x.1)) = some ["Mass", "Position"] ∧
    (st0.readAll ["Mass", "Nope"]).toOption.isNone := by
  refine ⟨?_, ?_, ?_⟩ <;> decide +kernel

/-- The hypotheses of `mismatch_stuck`, `column_now`, `fields_sizes`, `persist_spec` are met. -/
theorem hypotheses_met :
    ((Src.dict 2).dtype mem ≠ (Src.dict 0).dtype mem ∧ (sizeOf mem (.dict 2)).toOption = some 3) ∧
    ((st0.run [.putDict 0 "Mass" 3, .access "Mass", .setCol "Other" (.arr 1)]).rows "Mass").toOption = some [0, 0, 0] ∧
    (∀ p ∈ [("Position", 0), ("Mass", 1)], (mem.arrs p.2).rows.length = 3) ∧
    (st0.persist (some ["Mass"])).toOption.isSome := by
  refine ⟨⟨?_, ?_⟩, ?_, ?_, ?_⟩ <;> decide +kernel

end NBK.ArrObj
