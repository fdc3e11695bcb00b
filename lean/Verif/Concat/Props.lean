import Verif.Concat.Model
import Mathlib.Data.List.Perm.Basic
import Mathlib.Algebra.BigOperators.Group.List.Basic

/-! # Concatenating catalogs: property C22 -/
set_option linter.unusedSimpArgs false
namespace NBK.Concat

/-- Every column has one entry per row. -/
def Src.Ok {α : Type} (s : Src α) : Prop := ∀ c ∈ s.columns, (s.col c).length = s.size

/-- The rows of a catalog, restricted to the columns `cs`: each row is the list of its values. -/
def rows {α : Type} (cs : List String) (s : Src α) : List (List (Option α)) :=
  (List.range s.size).map fun (i : Nat) => cs.map fun c => (s.col c)[i]?

theorem mem_keys (cs : List String) (c : String) : c ∈ keys cs ↔ c ∈ cs := by
  induction cs with
  | nil => simp [keys]
  | cons d cs ih =>
    simp only [keys, List.mem_cons, List.mem_filter, ih]
    by_cases h : c = d <;> simp [h]

/-- The requested columns. -/
def requested {α : Type} (s0 : Src α) : Option (List String) → List String
  | none => s0.columns
  | some [] => s0.columns
  | some cs => cs

theorem chosen_eq {α : Type} (s0 : Src α) (columns : Option (List String)) : chosen s0 columns = requested s0 columns := by
  cases columns with
  | none => rfl
  | some cs => cases cs <;> simp [chosen, requested]

theorem rows_append {α : Type} (cs : List String) (L : List (Src α)) (hok : ∀ s ∈ L, ∀ c ∈ cs, (s.col c).length = s.size) :
    (List.range (L.map Src.size).sum).map (fun (i : Nat) => cs.map fun c => ((L.map fun s => s.col c).flatten)[i]?) =
      (L.map (rows cs)).flatten := by
  induction L with
  | nil => rfl
  | cons s L ih =>
    simp only [List.map_cons, List.sum_cons, List.flatten_cons]
    rw [List.range_add, List.map_append]
    congr 1
    · unfold rows
      apply List.map_congr_left
      intro i hi
      apply List.map_congr_left
      intro c hc
      rw [List.getElem?_append_left]
      rw [hok s (by simp) c hc]
      simpa using hi
    · rw [← ih (fun s hs => hok s (by simp [hs])), List.map_map]
      apply List.map_congr_left
      intro i _
      simp only [Function.comp]
      apply List.map_congr_left
      intro c hc
      rw [List.getElem?_append_right (by rw [hok s (by simp) c hc]; omega)]
      rw [hok s (by simp) c hc, Nat.add_sub_cancel_left]

/-- C22 on one rank: with one communicator and all requested columns present, the rows of the result, restricted to the
requested columns (values of one row kept together), are the rows of the first source, then of the second, and so on;
the size is the sum of the sizes; the result has exactly the requested columns, each of the right length. -/
theorem concat_rows {α : Type} (s0 : Src α) (rest : List (Src α)) (columns : Option (List String))
    (hok : ∀ s ∈ s0 :: rest, s.Ok) (hcomm : ∀ s ∈ rest, s.comm = s0.comm)
    (hcols : ∀ s ∈ s0 :: rest, ∀ c ∈ requested s0 columns, c ∈ s.columns) :
    ∃ out, concatSources (s0 :: rest) columns = .ok out ∧ out.Ok ∧ out.comm = s0.comm ∧
      out.size = ((s0 :: rest).map Src.size).sum ∧ (∀ c, c ∈ out.columns ↔ c ∈ requested s0 columns) ∧
      rows (requested s0 columns) out = ((s0 :: rest).map (rows (requested s0 columns))).flatten := by
  have hreq := chosen_eq s0 columns
  have hlen : ∀ c ∈ requested s0 columns,
      (((s0 :: rest).map fun s => s.col c).flatten).length = ((s0 :: rest).map Src.size).sum := by
    intro c hc
    rw [List.length_flatten, List.map_map]
    congr 1
    apply List.map_congr_left
    intro s hs
    exact hok s hs c (hcols s hs c hc)
  refine ⟨⟨s0.comm, ((s0 :: rest).map Src.size).sum, keys (requested s0 columns),
    fun c => ((s0 :: rest).map fun s => s.col c).flatten⟩, ?_, ?_, rfl, rfl, ?_, ?_⟩
  · unfold concatSources
    simp only [hreq]
    have h1 : ¬ ((keys (requested s0 columns)).any fun c =>
        (((s0 :: rest).map fun s => s.col c).flatten).length != ((s0 :: rest).map Src.size).sum) = true := by
      simp only [List.any_eq_true, bne_iff_ne, ne_eq, not_exists, not_and, not_not]
      intro c hc
      exact hlen c ((mem_keys _ _).mp hc)
    have h2 : ¬ ((s0 :: rest).any fun s => decide (¬ ((requested s0 columns).all fun c => s.columns.contains c) = true)) =
        true := by
      simp only [List.any_eq_true, decide_eq_true_eq, not_exists, not_and, not_not, List.all_eq_true,
        List.contains_iff_mem]
      exact hcols
    have h3 : ¬ ¬ ((s0 :: rest).all fun s => decide (s.comm = s0.comm)) = true := by
      simp only [not_not, List.all_eq_true, decide_eq_true_eq, List.mem_cons]
      rintro s (rfl | hs)
      · rfl
      · exact hcomm s hs
    rw [if_neg h3, if_neg h2, if_neg h1]
  · intro c hc
    exact hlen c ((mem_keys _ _).mp hc)
  · intro c; exact mem_keys _ _
  · exact rows_append _ _ (fun s hs c hc => hok s hs c (hcols s hs c hc))

/-- C22, rejection: a requested column missing from any source, or differing communicators, give a ValueError. -/
theorem concat_rejects {α : Type} (s0 : Src α) (rest : List (Src α)) (columns : Option (List String))
    (h : (∃ s ∈ s0 :: rest, ∃ c ∈ requested s0 columns, c ∉ s.columns) ∨ ∃ s ∈ rest, s.comm ≠ s0.comm) :
    concatSources (s0 :: rest) columns = .error .valueError := by
  have hreq := chosen_eq s0 columns
  unfold concatSources
  simp only [hreq]
  split
  · rfl
  · rename_i h1
    rw [if_pos]
    simp only [not_not, List.all_eq_true, decide_eq_true_eq, List.mem_cons] at h1
    rcases h with ⟨s, hs, c, hc, hn⟩ | ⟨s, hs, hn⟩
    · simp only [List.any_eq_true, decide_eq_true_eq, List.all_eq_true, List.contains_iff_mem]
      exact ⟨s, hs, fun hall => hn (hall c hc)⟩
    · exact absurd (h1 s (Or.inr hs)) hn

/-- C22 over all ranks: `S` lists the sources, `S[i][r]` is source `i` on rank `r` of `P`. The global rows of the result
are a permutation of all rows of all sources, for every distribution (they are interleaved rank by rank). -/
theorem concat_global {α : Type} (P : Nat) (S : List (Nat → Src α)) (cs : List String)
    (out : Nat → Src α) (hS : S ≠ []) (hcs : cs ≠ [])
    (hok : ∀ r, r < P → ∀ s ∈ S, (s r).Ok)
    (hrun : ∀ r, r < P → concatSources (S.map fun s => s r) (some cs) = .ok (out r)) :
    (((List.range P).map fun r => rows cs (out r)).flatten).Perm
      ((S.map fun s => ((List.range P).map fun r => rows cs (s r)).flatten).flatten) := by
  have hrank : ∀ r, r < P → rows cs (out r) = (S.map fun s => rows cs (s r)).flatten := by
    intro r hr
    obtain ⟨s0, rest, rfl⟩ := List.exists_cons_of_ne_nil hS
    have hreq : requested (s0 r) (some cs) = cs := by
      cases cs with
      | nil => exact absurd rfl hcs
      | cons => rfl
    have hrun' := hrun r hr
    rw [List.map_cons] at hrun'
    have hcomm : ∀ s ∈ rest.map (fun s => s r), s.comm = (s0 r).comm := by
      by_contra hc
      push Not at hc
      rw [concat_rejects _ _ _ (Or.inr hc)] at hrun'
      cases hrun'
    have hcols : ∀ s ∈ s0 r :: rest.map (fun s => s r), ∀ c ∈ requested (s0 r) (some cs), c ∈ s.columns := by
      by_contra hc
      push Not at hc
      rw [concat_rejects _ _ _ (Or.inl hc)] at hrun'
      cases hrun'
    obtain ⟨o, h1, _, _, _, _, h2⟩ := concat_rows (s0 r) (rest.map fun s => s r) (some cs) (by
      intro s hs
      rw [← List.map_cons (f := fun s : Nat → Src α => s r)] at hs
      obtain ⟨t, ht, rfl⟩ := List.mem_map.mp hs
      exact hok r hr t ht) hcomm hcols
    rw [h1] at hrun'
    simp only [Except.ok.injEq] at hrun'
    subst hrun'
    rw [hreq] at h2
    rw [h2]
    simp [Function.comp_def]
  have e : (List.range P).map (fun r => rows cs (out r)) =
      (List.range P).map (fun r => (S.map fun s => rows cs (s r)).flatten) := by
    apply List.map_congr_left
    intro r hr
    exact hrank r (by simpa using hr)
  rw [e]
  generalize List.range P = R
  clear e hrank hrun hok hS
  induction S with
  | nil => simp
  | cons s S ih =>
    simp only [List.map_cons, List.flatten_cons]
    refine List.Perm.trans ?_ (List.Perm.append_left _ ih)
    clear ih
    induction R with
    | nil => simp
    | cons r R ihR =>
      simp only [List.map_cons, List.flatten_cons, List.append_assoc]
      refine List.Perm.append_left _ ?_
      refine (List.Perm.append_left _ ihR).trans ?_
      rw [← List.append_assoc, ← List.append_assoc]
      exact List.Perm.append_right _ List.perm_append_comm

/-- Non-vacuity: two sources with a common column on one rank. -/
example : ∃ out, concatSources [(⟨0, 2, ["x", "y"], fun _ => [1, 2]⟩ : Src Nat), ⟨0, 1, ["x"], fun _ => [3]⟩]
    (some ["x"]) = .ok out ∧ out.col "x" = [1, 2, 3] := ⟨_, rfl, rfl⟩

end NBK.Concat
