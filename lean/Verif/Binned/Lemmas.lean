import Verif.Binned.Model
import Verif.Binned.IndexLemmas

/-!
# Lemmas about selections
-/
set_option linter.unusedSimpArgs false
namespace NBK.Binned
open NBK.PySlice
variable {A : Type}

/-- What every `BinnedStatistic` satisfies: one list of edges and coordinates per dimension, one more edge than bins, and arrays of
the right size. -/
structure WF (b : BS A) : Prop where
  nodup : b.dims.Nodup
  ledges : b.edges.length = b.dims.length
  lcoords : b.coords.length = b.dims.length
  bins : ∀ (i : Nat) (e c : List ℚ), b.edges[i]? = some e → b.coords[i]? = some c → e.length = c.length + 1
  size : ∀ c ∈ b.data, c.vals.length = b.shape.prod
  msize : b.mask.length = b.shape.prod

theorem shape_length (b : BS A) : b.shape.length = b.coords.length := by simp [BS.shape]

/-- The element at an index of the data selected by `takeAll`. -/
theorem takeAll_aux {α : Type} (d : α) (shape : List Nat) (idx : List (List Nat)) (hl : idx.length = shape.length) (a : List α)
    (k : Nat) (hk : k ≤ shape.length) :
    ∀ st, st = ((List.range k).foldl (fun (st : List Nat × List α) i =>
      (st.1.set i (idx.getD i []).length, takeAxis d st.1 i (idx.getD i []) st.2)) (shape, a)) →
    st.1 = (idx.take k).map List.length ++ shape.drop k ∧ (a.length = shape.prod → st.2.length = st.1.prod) ∧
    ∀ js, Valid st.1 js → (∀ i < shape.length, ∀ x ∈ idx.getD i [], x < shape.getD i 0) →
      ∃ js', Valid shape js' ∧ (∀ i < shape.length, js'.getD i 0 = if i < k then (idx.getD i []).getD (js.getD i 0) 0 else js.getD i 0) ∧
        (a.length = shape.prod → st.2[flat st.1 js]? = a[flat shape js']?) := by
  induction k with
  | zero =>
    rintro st rfl
    refine ⟨by simp, by simp, fun js hv _ => ⟨js, by simpa using hv, by simp, by simp⟩⟩
  | succ k ih =>
    intro st hst
    obtain ⟨st0, hst0⟩ : ∃ st0, st0 = ((List.range k).foldl (fun (st : List Nat × List α) i =>
      (st.1.set i (idx.getD i []).length, takeAxis d st.1 i (idx.getD i []) st.2)) (shape, a)) := ⟨_, rfl⟩
    rw [List.range_succ, List.foldl_append, ← hst0] at hst
    simp only [List.foldl_cons, List.foldl_nil] at hst
    obtain ⟨h1, h2, h3⟩ := ih (by omega) st0 hst0
    have hkl : k < shape.length := by omega
    have hlen0 : st0.1.length = shape.length := by rw [h1]; simp; omega
    have hk0 : st0.1[k]? = some shape[k] := by
      have e1 : ((idx.take k).map List.length).length = k := by simp; omega
      rw [h1, List.getElem?_append_right (by omega), List.getElem?_drop, e1]
      simp [hkl]
    have hidx : idx.getD k [] = idx[k]'(by omega) := List.getD_eq_getElem _ _ _
    subst hst
    refine ⟨?_, ?_, ?_⟩
    · dsimp only
      rw [h1, List.set_append_right _ _ (by simp)]
      have e1 : k - ((idx.take k).map List.length).length = 0 := by simp; omega
      rw [e1, List.drop_eq_getElem_cons hkl, List.set_cons_zero, List.take_succ_eq_append_getElem (by omega), List.map_append, hidx]
      simp
    · intro _
      exact takeAxis_length _ _ _ (by omega) _ _
    · intro js hv hb
      dsimp only at hv ⊢
      have hjl : js.length = shape.length := by have := hv.1; simp at this; omega
      have hx : (idx.getD k []).getD (js.getD k 0) 0 < shape[k] := by
        have hj := hv.2 k (by simp; omega)
        have : (st0.1.set k (idx.getD k []).length).getD k 0 = (idx.getD k []).length := by
          rw [List.getD_eq_getElem?_getD, List.getElem?_set_self (by omega)]; rfl
        rw [this] at hj
        have := hb k hkl ((idx.getD k []).getD (js.getD k 0) 0) (by
          rw [List.getD_eq_getElem _ _ hj]; exact List.getElem_mem hj)
        rw [List.getD_eq_getElem shape _ hkl] at this
        exact this
      have hv0 : Valid st0.1 (js.set k ((idx.getD k []).getD (js.getD k 0) 0)) := valid_set _ _ _ _ _ hv _ hk0 hx
      obtain ⟨js', w1, w2, w3⟩ := h3 _ hv0 hb
      refine ⟨js', w1, ?_, ?_⟩
      · intro i hi
        rw [w2 i hi]
        have hgs : ∀ x, (js.set k x).getD i 0 = if i = k then x else js.getD i 0 := by
          intro x
          rw [List.getD_eq_getElem?_getD, List.getElem?_set]
          by_cases e : i = k
          · subst e; simp [hjl, hi]
          · simp [e, Ne.symm e]
        rw [hgs]
        by_cases c1 : i = k
        · subst c1; simp
        · by_cases c2 : i < k
          · simp [c1, c2, Nat.lt_succ_of_lt c2]
          · have : ¬ i < k + 1 := by omega
            simp [c1, c2, this]
      · intro ha
        rw [takeAxis_get d st0.1 k (by omega) (idx.getD k []) st0.2 js hv, ← w3 ha]
        have hlt := flat_lt _ _ hv0
        rw [← h2 ha] at hlt
        rw [List.getD_eq_getElem _ _ hlt, List.getElem?_eq_getElem hlt]

/-- The selected data: the element at index `js` is that at the selected positions. -/
theorem takeAll_get {α : Type} (d : α) (shape : List Nat) (idx : List (List Nat)) (hl : idx.length = shape.length) (a : List α)
    (ha : a.length = shape.prod) (hb : ∀ i < shape.length, ∀ x ∈ idx.getD i [], x < shape.getD i 0) (js : List Nat)
    (hv : Valid (idx.map List.length) js) :
    Valid shape ((List.range js.length).map fun i => (idx.getD i []).getD (js.getD i 0) 0) ∧
    (takeAll d shape idx a)[flat (idx.map List.length) js]? =
      a[flat shape ((List.range js.length).map fun i => (idx.getD i []).getD (js.getD i 0) 0)]? := by
  obtain ⟨h1, h2, h3⟩ := takeAll_aux d shape idx hl a shape.length le_rfl _ rfl
  have e : ((idx.take shape.length).map List.length ++ shape.drop shape.length) = idx.map List.length := by
    rw [List.drop_length, ← hl, List.take_length, List.append_nil]
  rw [e] at h1
  rw [h1] at h3
  obtain ⟨js', w1, w2, w3⟩ := h3 js hv hb
  have hjl : js.length = shape.length := by have := hv.1; simp at this; omega
  have : js' = (List.range js.length).map fun i => (idx.getD i []).getD (js.getD i 0) 0 := by
    apply List.ext_getElem
    · simp [w1.1, hjl]
    · intro i g1 g2
      have hi : i < shape.length := by rw [w1.1] at g1; exact g1
      have := w2 i hi
      rw [List.getD_eq_getElem _ _ g1] at this
      simp [this, hi]
  rw [← this]
  exact ⟨w1, w3 ha⟩

theorem takeAll_length {α : Type} (d : α) (shape : List Nat) (idx : List (List Nat)) (hl : idx.length = shape.length) (a : List α)
    (ha : a.length = shape.prod) : (takeAll d shape idx a).length = (idx.map List.length).prod := by
  obtain ⟨h1, h2, h3⟩ := takeAll_aux d shape idx hl a shape.length le_rfl _ rfl
  have e : ((idx.take shape.length).map List.length ++ shape.drop shape.length) = idx.map List.length := by
    rw [List.drop_length, ← hl, List.take_length, List.append_nil]
  rw [e] at h1
  rw [h1] at h2
  exact h2 ha

theorem mapM_ok {β γ : Type} {ε : Type} (f : β → Except ε γ) (l : List β) (out : List γ) :
    l.mapM f = .ok out ↔ List.Forall₂ (fun x y => f x = .ok y) l out := by
  induction l generalizing out with
  | nil =>
    simp only [List.mapM_nil, List.forall₂_nil_left_iff, pure, Except.pure]
    constructor
    · intro h; exact (Except.ok.inj h).symm
    · rintro rfl; rfl
  | cons x xs ih =>
    rw [List.mapM_cons]
    cases hf : f x with
    | error e =>
      simp only [bind, Except.bind]
      constructor
      · intro h; cases h
      · intro h; cases h with | cons h1 _ => rw [hf] at h1; cases h1
    | ok y =>
      cases hm : xs.mapM f with
      | error e =>
        simp only [bind, Except.bind]
        constructor
        · intro h; cases h
        · intro h; cases h with
          | cons _ h2 => rw [(ih _).mpr h2] at hm; cases hm
      | ok ys =>
        simp only [bind, Except.bind, pure, Except.pure]
        constructor
        · intro h
          obtain rfl := Except.ok.inj h
          exact .cons hf ((ih _).mp hm)
        · intro h; cases h with
          | cons h1 h2 =>
            rw [hf] at h1
            have := (ih _).mpr h2
            rw [hm] at this
            rw [Except.ok.inj h1, Except.ok.inj this]

theorem centers_length (e : List ℚ) : (centers e).length = e.length - 1 := by
  simp [centers]

theorem sliceEdges_length (e : List ℚ) (idx : List Int) (r : List ℚ) (h : sliceEdges e idx = .ok r) : r.length = idx.length + 1 := by
  unfold sliceEdges at h
  rw [mapM_ok] at h
  have := h.length_eq
  unfold edgeIdx at this
  split at this
  · simpa using this.symm
  · rename_i hl
    rw [List.getLast?_eq_none_iff] at hl
    rw [hl]; simpa using this.symm

/-- The edges of a selection of bins. -/
theorem sliceEdges_nat (e : List ℚ) (n : Nat) (he : e.length = n + 1) (idx : List Nat) (hb : ∀ x ∈ idx, x < n) :
    ∃ r, sliceEdges e (idx.map Int.ofNat) = .ok r ∧ r.length = idx.length + 1 ∧
      (∀ (k x : Nat), idx[k]? = some x → r[k]? = e[x]?) ∧ (∀ x : Nat, idx.getLast? = some x → r[idx.length]? = e[x + 1]?) := by
  obtain ⟨idx', hi⟩ : ∃ idx' : List Nat, idx' = idx ++ [match idx.getLast? with | some l => l + 1 | none => 0] := ⟨_, rfl⟩
  have hb' : ∀ x ∈ idx', x < e.length := by
    intro x hx
    rw [hi, List.mem_append, List.mem_singleton] at hx
    rcases hx with h | h
    · have := hb x h; omega
    · cases hl : idx.getLast? with
      | none => rw [hl] at h; simp at h; omega
      | some l =>
        rw [hl] at h
        have := hb l (List.mem_of_getLast? hl)
        simp at h; omega
  have hw : ∀ x < e.length, wrap e.length (Int.ofNat x) = .ok x := by
    intro x hx
    unfold wrap
    rw [if_pos (by constructor <;> simp; exact hx)]
    simp
  refine ⟨idx'.map fun x => e.getD x 0, ?_, by simp [hi], ?_, ?_⟩
  · unfold sliceEdges
    have e1 : edgeIdx (idx.map Int.ofNat) = idx'.map Int.ofNat := by
      rw [hi, edgeIdx, List.getLast?_map]
      cases hl : idx.getLast? with
      | none =>
        rw [List.getLast?_eq_none_iff] at hl
        subst hl; rfl
      | some l => simp
    rw [e1, mapM_ok, List.forall₂_map_left_iff, List.forall₂_map_right_iff, List.forall₂_same]
    intro x hx
    rw [hw x (hb' x hx)]
  · intro k x hk
    have hkl := (List.getElem?_eq_some_iff.mp hk).1
    rw [List.getElem?_map, hi, List.getElem?_append_left hkl, hk, Option.map_some]
    have := hb' x (by rw [hi]; exact List.mem_append_left _ (List.mem_of_getElem? hk))
    rw [List.getD_eq_getElem _ _ this, List.getElem?_eq_getElem this]
  · intro x hx
    rw [List.getElem?_map, hi, List.getElem?_append_right le_rfl, hx]
    have := hb' (x + 1) (by rw [hi, hx]; simp)
    simp [List.getElem?_eq_getElem this]

end NBK.Binned
