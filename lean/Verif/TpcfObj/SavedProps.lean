import Verif.TpcfObj.Saved

set_option linter.unusedSimpArgs false

/-! C118: a saved three-point function is read back. -/
namespace NBK.TpcfObj
open Json (V J Field Fl WF WFD Keeps KeepsD)

/-- **C118** for files (partial: attributes which the format keeps, see `Verif.Json`, and at least one bin). A saved object is read back
with the same multipoles, edges and attributes; only the source is gone. -/
theorem load_save_partial (poles : V) (attrs : List (String × V)) (src : Bool) (hp : WF poles) (hpk : Keeps poles) (ha : WFD attrs)
    (hak : KeepsD attrs) (o : Saved) (ho : ofState poles attrs src = .ok o) :
    ∃ j, save o = .ok j ∧ load j = .ok { o with source := false } := by
  unfold ofState at ho
  cases he : attrs.lookup "edges" with
  | none => rw [he] at ho; cases ho
  | some e =>
    rw [he] at ho
    cases ho
    have hw : WF (getState ⟨["r1", "r2"], [e, e], poles, attrs, src⟩) := by
      unfold getState
      rw [WF, WFD, WFD, WFD, WF]
      exact ⟨by simp [Json.reserved], hp, by simp [Json.reserved], ha, trivial⟩
    have hk : Keeps (getState ⟨["r1", "r2"], [e, e], poles, attrs, src⟩) := by
      unfold getState
      rw [Keeps, KeepsD, KeepsD, KeepsD, Keeps]
      exact ⟨hpk, hak, trivial⟩
    obtain ⟨j, h1, h2⟩ := Json.roundtrip_aux _ hw
    rw [Json.norm_keeps _ hk] at h2
    refine ⟨j, h1, ?_⟩
    unfold load
    rw [h2]
    unfold getState
    simp [List.lookup, ofState, he]

/-- The data of a result with bins can be written and is kept. -/
theorem data_ok (poles : List Nat) (n : Nat) (hn : 0 < n) (zeta : Nat → Nat → Nat → Fl) :
    WF (dataOf poles n zeta) ∧ Keeps (dataOf poles n zeta) := by
  unfold dataOf
  refine ⟨?_, ?_⟩
  · rw [WF]
    refine ⟨?_, ?_, ?_⟩
    · intro f hf
      obtain ⟨l, _, rfl⟩ := List.mem_map.mp hf
      refine ⟨?_, rfl, ?_, by simp⟩
      · intro h
        have := congrArg String.toList h
        simp at this
      · show (Json.kind "<f8").isSome = true
        rw [Json.kind_f8]; rfl
    · simp [Json.size]
    · intro r hr
      obtain ⟨i, _, rfl⟩ := List.mem_map.mp hr
      refine ⟨by simp, ?_⟩
      intro p hp
      rw [List.zip_map'] at hp
      obtain ⟨l, _, rfl⟩ := List.mem_map.mp hp
      refine ⟨rfl, ?_⟩
      intro x hx
      rw [List.mem_singleton.mp hx]
      exact Json.kind_f8
  · rw [Keeps]
    intro k hk
    simp at hk
    omega

/-- The claim fails for one edge: the 0 x 0 array is read back with one dimension. -/
theorem no_bins (zeta : Nat → Nat → Nat → Fl) (o : Saved)
    (ho : ofState (dataOf [0] 0 zeta) [("poles", .list [.int 0]), ("edges", .list [.flt (.num 1)])] true = .ok o) :
    ∃ j o', save o = .ok j ∧ load j = .ok o' ∧ o'.data = .sarr [⟨"corr_0", .base "<f8", none⟩] [0] [] ∧
      o.data = .sarr [⟨"corr_0", .base "<f8", none⟩] [0, 0] [] := by
  cases ho
  exact ⟨_, _, rfl, rfl, rfl, rfl⟩

/-- The claim fails for a tuple of edges: they are read back as a list. -/
theorem tuple_edges (zeta : Nat → Nat → Nat → Fl) (o : Saved)
    (ho : ofState (dataOf [0] 1 zeta) [("poles", .list [.int 0]), ("edges", .tup [.int 1, .int 2])] true = .ok o) :
    ∃ j o', save o = .ok j ∧ load j = .ok o' ∧ o'.edges = [.list [.int 1, .int 2], .list [.int 1, .int 2]] ∧
      o.edges = [.tup [.int 1, .int 2], .tup [.int 1, .int 2]] := by
  cases ho
  obtain ⟨j, h1, h2⟩ := Json.roundtrip_aux (getState ⟨["r1", "r2"], [.tup [.int 1, .int 2], .tup [.int 1, .int 2]], dataOf [0] 1 zeta,
      [("poles", .list [.int 0]), ("edges", .tup [.int 1, .int 2])], true⟩) (by
    unfold getState
    have := (data_ok [0] 1 (by omega) zeta).1
    simp [WF, WFD, Json.WFL, Json.reserved, this])
  refine ⟨j, ⟨["r1", "r2"], [.list [.int 1, .int 2], .list [.int 1, .int 2]], dataOf [0] 1 zeta,
    [("poles", .list [.int 0]), ("edges", .list [.int 1, .int 2])], false⟩, h1, ?_, rfl, rfl⟩
  unfold load
  rw [h2]
  unfold getState
  simp [Json.norm, Json.normD, Json.normL, Json.norm_keeps _ (data_ok [0] 1 (by omega) zeta).2, List.lookup, ofState]

/-- Attributes with a cosmology. -/
def exAttrs : List (String × V) := [("poles", .list [.int 0, .int 2]),
  ("edges", .arr "<f8" [3] [.flt (.num 1), .flt (.num 2), .flt (.num 3)]), ("cosmo", .cosmo [("h", .flt (.num (7 / 10)))])]

/-- The hypotheses of `load_save_partial` are met by a result with a cosmology in its attributes. -/
example (zeta : Nat → Nat → Nat → Fl) : ∃ o, ofState (dataOf [0, 2] 2 zeta) exAttrs true = .ok o ∧
    (∃ j, save o = .ok j ∧ load j = .ok { o with source := false }) := by
  have h : ∃ o, ofState (dataOf [0, 2] 2 zeta) exAttrs true = .ok o := ⟨_, rfl⟩
  obtain ⟨o, ho⟩ := h
  refine ⟨o, ho, load_save_partial _ exAttrs true (data_ok [0, 2] 2 (by omega) zeta).1 (data_ok [0, 2] 2 (by omega) zeta).2 ?_ ?_ o ho⟩
  · simp only [exAttrs, WFD, WF, Json.WFL, Json.reserved, and_true, true_and]
    refine ⟨by simp, by simp, ⟨by rw [Json.kind_f8]; rfl, rfl, ?_⟩, by simp, by simp⟩
    intro x hx
    simp only [List.mem_cons, List.not_mem_nil, or_false] at hx
    rcases hx with rfl | rfl | rfl <;> exact Json.kind_f8
  · simp [exAttrs, KeepsD, Keeps, Json.KeepsL]

/-- The value of a multipole in the bins `i` of r1 and `j` of r2, in C order. -/
theorem data_at (poles : List Nat) (n : Nat) (zeta : Nat → Nat → Nat → Fl) (i j : Nat) (hi : i < n) (hj : j < n) :
    ∃ fs rows, dataOf poles n zeta = .sarr fs [n, n] rows ∧ rows.length = n * n ∧ fs.map (·.name) = poles.map (fun l => "corr_" ++ toString l) ∧
      ∀ (k l : Nat), poles[k]? = some l → (rows[i * n + j]?).bind (·[k]?) = some [Json.Sc.flt (zeta l i j)] := by
  refine ⟨_, _, rfl, by simp, by simp, fun k l hk => ?_⟩
  have hlt : i * n + j < n * n := by
    have := Nat.mul_le_mul_right n (show i + 1 ≤ n from hi)
    rw [Nat.add_mul, Nat.one_mul] at this
    omega
  have h1 : (i * n + j) / n = i := by
    rw [Nat.add_comm, Nat.add_mul_div_right _ _ (by omega), Nat.div_eq_of_lt hj, Nat.zero_add]
  have h2 : (i * n + j) % n = j := by
    rw [Nat.add_comm, Nat.add_mul_mod_self_right, Nat.mod_eq_of_lt hj]
  rw [List.getElem?_map, List.getElem?_range hlt]
  simp only [Option.map_some, Option.bind_some, List.getElem?_map, hk, h1, h2]

end NBK.TpcfObj
