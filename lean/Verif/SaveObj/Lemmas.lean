import Verif.SaveObj.Model

/-! # Lemmas for saved catalogs (C139) -/
set_option linter.unusedSimpArgs false
namespace NBK.SaveObj
open NBK.Attrs (Codec Dict Val Stored)
variable {V : Type}

/-! ## Blocks -/

theorem lookup_map_ne {β : Type} (f : List (Name × β)) (n m : Name) (b : β) (h : m ≠ n) : (f.map fun p => if p.1 = n then (n, b) else p).lookup m = f.lookup m := by
  induction f with
  | nil => rfl
  | cons p f ih =>
    rw [List.map_cons]
    by_cases hp : p.1 = n
    · rw [if_pos hp, List.lookup_cons, ih]
      have h1 : (m == n) = false := by simpa using h
      have h2 : (m == p.1) = false := by rw [hp]; exact h1
      rw [h1]
      obtain ⟨x, y⟩ := p
      rw [List.lookup_cons, h2]
    · rw [if_neg hp]
      obtain ⟨x, y⟩ := p
      rw [List.lookup_cons, List.lookup_cons, ih]

theorem lookup_map_eq {β : Type} (f : List (Name × β)) (n : Name) (b : β) (h : (f.lookup n).isSome) : (f.map fun p => if p.1 = n then (n, b) else p).lookup n = some b := by
  induction f with
  | nil => cases h
  | cons p f ih =>
    obtain ⟨x, y⟩ := p
    rw [List.map_cons]
    by_cases hp : x = n
    · rw [if_pos hp]; simp
    · rw [if_neg hp]
      have h1 : (n == x) = false := by simpa using fun e => hp e.symm
      rw [List.lookup_cons, h1]
      rw [List.lookup_cons, h1] at h
      exact ih h

theorem lookup_setBlock (f : File V) (n m : Name) (b : Block V) : (setBlock f n b).lookup m = if m = n then some b else f.lookup m := by
  unfold setBlock
  by_cases hs : (f.lookup n).isSome
  · rw [if_pos hs]
    by_cases hm : m = n
    · subst hm; rw [if_pos rfl, lookup_map_eq f m b hs]
    · rw [if_neg hm, lookup_map_ne f n m b hm]
  · rw [if_neg hs, List.lookup_append]
    by_cases hm : m = n
    · subst hm
      rw [if_pos rfl]
      have : f.lookup m = none := Option.not_isSome_iff_eq_none.mp hs
      simp [this]
    · rw [if_neg hm]
      have : (m == n) = false := by simpa using hm
      simp [List.lookup_cons, this]

theorem block_put (fs : FS V) (path path' : String) (n m : Name) (b : Block V) :
    (fs.put path n b).block path' m = if path' = path ∧ m = n then some b else fs.block path' m := by
  unfold FS.put FS.block
  by_cases hp : path' = path
  · subst hp
    simp only [Function.update_self, Option.bind_some, lookup_setBlock, true_and]
    by_cases hm : m = n
    · rw [if_pos hm, if_pos hm]
    · rw [if_neg hm, if_neg hm]
      cases fs path' <;> rfl
  · rw [Function.update_of_ne hp, if_neg (fun h => hp h.1)]

theorem put_path (fs : FS V) (path path' : String) (n : Name) (b : Block V) (h : path' ≠ path) : (fs.put path n b) path' = fs path' := by
  unfold FS.put
  rw [Function.update_of_ne h]

/-! ## Values -/

theorem mapM_some {α β : Type} (f : α → Option β) (l : List α) (vs : List β) : l.mapM f = some vs ↔ l.map f = vs.map some := by
  induction l generalizing vs with
  | nil => cases vs <;> simp
  | cons a l ih =>
    rw [List.mapM_cons]
    cases hf : f a with
    | none => cases vs <;> simp [hf]
    | some b =>
      cases hl : l.mapM f with
      | none =>
        simp only [hl, bind, Option.bind]
        cases vs with
        | nil => simp
        | cons v vs =>
          simp only [List.map_cons, hf, List.cons.injEq, reduceCtorEq, false_iff]
          intro h
          rw [(ih vs).mpr h.2] at hl
          cases hl
      | some bs =>
        have hb := (ih bs).mp hl
        simp only [hl, bind, Option.bind, pure, Option.some.injEq]
        cases vs with
        | nil => simp
        | cons v vs =>
          simp only [List.map_cons, hf, hb, List.cons.injEq, Option.some.injEq]
          constructor
          · rintro ⟨rfl, rfl⟩; exact ⟨rfl, rfl⟩
          · rintro ⟨rfl, h⟩
            exact ⟨rfl, List.map_injective_iff.mpr (fun _ _ e => Option.some.inj e) h⟩

theorem mapM_range (n : Nat) (f : Nat → Option V) (vs : List V) : (List.range n).mapM f = some vs ↔ vs.length = n ∧ ∀ i, i < n → vs[i]? = f i := by
  rw [mapM_some]
  constructor
  · intro h
    have hl : vs.length = n := by simpa using (congrArg List.length h).symm
    refine ⟨hl, fun i hi => ?_⟩
    have := congrArg (fun l : List (Option V) => l[i]?) h
    simp only [List.getElem?_map, List.getElem?_range hi, Option.map_some] at this
    rw [List.getElem?_eq_getElem (by omega)] at this ⊢
    simpa using this.symm
  · rintro ⟨hl, h⟩
    apply List.ext_getElem?
    intro i
    rw [List.getElem?_map, List.getElem?_map]
    by_cases hi : i < n
    · rw [List.getElem?_range hi, Option.map_some]
      have := h i hi
      rw [← this, List.getElem?_eq_getElem (by omega)]
      rfl
    · rw [List.getElem?_eq_none (by simpa using hi), List.getElem?_eq_none (by omega)]
      rfl

theorem mapM_range_some (n : Nat) {β : Type} (f : Nat → Option β) (h : ∀ i, i < n → (f i).isSome) : ∃ vs, (List.range n).mapM f = some vs := by
  induction n with
  | zero => exact ⟨[], rfl⟩
  | succ n ih =>
    obtain ⟨vs, hv⟩ := ih fun i hi => h i (by omega)
    obtain ⟨b, hb⟩ := Option.isSome_iff_exists.mp (h n (by omega))
    refine ⟨vs ++ [b], ?_⟩
    rw [mapM_some] at hv ⊢
    rw [List.range_succ, List.map_append, hv, List.map_append]
    simp [hb]

theorem offset_succ (e : Expr V) (r : Nat) : offset e (r + 1) = offset e r + e.len r := by
  unfold offset
  rw [List.range_succ, List.map_append, List.sum_append]
  simp

theorem total_eq (P : Nat) (e : Expr V) : total P e = offset e P := rfl

theorem offset_mono (e : Expr V) {r s : Nat} (h : r ≤ s) : offset e r ≤ offset e s := by
  induction s with
  | zero => rw [Nat.le_zero.mp h]
  | succ s ih =>
    rw [offset_succ]
    by_cases hr : r = s + 1
    · rw [hr, offset_succ]
    · have := ih (by omega); omega

/-- A global row is a row of a rank. -/
theorem row_of (P : Nat) (e : Expr V) (k : Nat) (h : k < total P e) : ∃ r i, r < P ∧ i < e.len r ∧ k = offset e r + i := by
  induction P with
  | zero => simp [total] at h
  | succ P ih =>
    rw [total_eq, offset_succ] at h
    by_cases hk : k < offset e P
    · obtain ⟨r, i, h1, h2, h3⟩ := ih hk
      exact ⟨r, i, by omega, h2, h3⟩
    · exact ⟨P, k - offset e P, by omega, by omega, by omega⟩

theorem row_lt (P : Nat) (e : Expr V) (r i : Nat) (hr : r < P) (hi : i < e.len r) : offset e r + i < total P e := by
  have h1 := offset_succ e r
  have h2 := offset_mono e (show r + 1 ≤ P by omega)
  rw [total_eq]
  omega

/-- The rows of a column, rank by rank. -/
theorem values_spec (fs : FS V) (P : Nat) (e : Expr V) (vs : List V) (h : values fs P e = some vs) :
    vs.length = total P e ∧ ∀ r i, r < P → i < e.len r → vs[offset e r + i]? = e.row fs r i := by
  induction P generalizing vs with
  | zero =>
    unfold values at h
    simp at h
    subst h
    exact ⟨rfl, fun r i hr => by omega⟩
  | succ P ih =>
    unfold values at h
    rw [Option.map_eq_some_iff] at h
    obtain ⟨ls, h1, rfl⟩ := h
    rw [mapM_some, List.range_succ, List.map_append] at h1
    have hlen : ls ≠ [] := by
      rintro rfl
      simp at h1
    obtain ⟨ls', x, rfl⟩ : ∃ a b, ls = a ++ [b] := ⟨ls.dropLast, ls.getLast hlen, (List.dropLast_append_getLast hlen).symm⟩
    rw [List.map_append, List.map_cons, List.map_nil, List.map_cons, List.map_nil] at h1
    have h2 := List.append_inj' h1 rfl
    have h3 := h2.2
    simp only [List.cons.injEq, and_true] at h3
    have hv : values fs P e = some ls'.flatten := by
      unfold values
      rw [(mapM_some _ _ ls').mpr h2.1]
      rfl
    obtain ⟨g1, g2⟩ := ih _ hv
    obtain ⟨g3, g4⟩ := (mapM_range _ _ _).mp h3
    refine ⟨?_, fun r i hr hi => ?_⟩
    · rw [List.flatten_append, List.length_append, g1, total_eq, total_eq, offset_succ]
      simp [g3]
    · rw [List.flatten_append]
      by_cases hP : r = P
      · subst hP
        rw [List.getElem?_append_right (by rw [g1, total_eq]; omega), g1, total_eq]
        simp only [List.flatten_cons, List.flatten_nil, List.append_nil]
        rw [show offset e r + i - offset e r = i by omega]
        exact g4 i hi
      · rw [List.getElem?_append_left (by rw [g1]; exact row_lt P e r i (by omega) hi)]
        exact g2 r i (by omega) hi

/-- All rows can be computed. -/
def Readable (fs : FS V) (P : Nat) (e : Expr V) : Prop := ∀ r i, r < P → i < e.len r → (e.row fs r i).isSome

theorem readable_iff (fs : FS V) (P : Nat) (e : Expr V) : Readable fs P e ↔ ∃ vs, values fs P e = some vs := by
  constructor
  · intro h
    have : ∀ r, r < P → ((List.range (e.len r)).mapM fun i => e.row fs r i).isSome := by
      intro r hr
      obtain ⟨vs, hv⟩ := mapM_range_some (e.len r) (fun i => e.row fs r i) (fun i hi => h r i hr hi)
      rw [hv]; rfl
    obtain ⟨ls, hl⟩ := mapM_range_some P _ this
    exact ⟨ls.flatten, by unfold values; rw [hl]; rfl⟩
  · rintro ⟨vs, hv⟩ r i hr hi
    obtain ⟨h1, h2⟩ := values_spec fs P e vs hv
    rw [← h2 r i hr hi, List.getElem?_eq_getElem (by rw [h1]; exact row_lt P e r i hr hi)]
    rfl

/-- What is there determines the rows. -/
theorem values_of (fs : FS V) (P : Nat) (e : Expr V) (vs : List V) (h1 : vs.length = total P e)
    (h2 : ∀ r i, r < P → i < e.len r → vs[offset e r + i]? = e.row fs r i) : values fs P e = some vs := by
  obtain ⟨us, hu⟩ := (readable_iff fs P e).mp (by
    intro r i hr hi
    rw [← h2 r i hr hi, List.getElem?_eq_getElem (by rw [h1]; exact row_lt P e r i hr hi)]
    rfl)
  obtain ⟨g1, g2⟩ := values_spec fs P e us hu
  rw [hu]
  congr 1
  apply List.ext_getElem?
  intro k
  by_cases hk : k < total P e
  · obtain ⟨r, i, a, b, rfl⟩ := row_of P e k hk
    rw [g2 r i a b, h2 r i a b]
  · rw [List.getElem?_eq_none (by omega), List.getElem?_eq_none (by omega)]

/-- A column depends on the blocks it reads. -/
theorem row_frame (fs fs' : FS V) (e : Expr V) (h : ∀ x ∈ e.reads, fs'.block x.1 x.2 = fs.block x.1 x.2) (r i : Nat) : e.row fs' r i = e.row fs r i := by
  induction e with
  | mem => rfl
  | disk p b lo len =>
    have := h (p, b) (by simp [Expr.reads])
    simp only [Expr.row, this]
  | map f a ih => simp only [Expr.row]; rw [ih h]
  | zip f a b iha ihb =>
    simp only [Expr.row]
    rw [iha fun x hx => h x (by simp [Expr.reads, hx]), ihb fun x hx => h x (by simp [Expr.reads, hx])]

theorem values_frame (fs fs' : FS V) (e : Expr V) (P : Nat) (h : ∀ x ∈ e.reads, fs'.block x.1 x.2 = fs.block x.1 x.2) : values fs' P e = values fs P e := by
  unfold values
  congr 2
  funext r
  congr 1
  funext i
  exact row_frame fs fs' e h r i

/-- As `row_frame`, where only attributes of blocks differ. -/
theorem row_frame_data (fs fs' : FS V) (e : Expr V)
    (h : ∀ x ∈ e.reads, (fs'.block x.1 x.2).map (fun b => (b.size, b.data)) = (fs.block x.1 x.2).map fun b => (b.size, b.data)) (r i : Nat) : e.row fs' r i = e.row fs r i := by
  induction e with
  | mem => rfl
  | disk p b lo len =>
    have := h (p, b) (by simp [Expr.reads])
    simp only [Expr.row]
    cases h1 : fs'.block p b <;> cases h2 : fs.block p b <;> rw [h1, h2] at this <;> simp at this ⊢
    obtain ⟨e1, e2⟩ := this
    rw [e1, e2]
  | map f a ih => simp only [Expr.row]; rw [ih h]
  | zip f a b iha ihb =>
    simp only [Expr.row]
    rw [iha fun x hx => h x (by simp [Expr.reads, hx]), ihb fun x hx => h x (by simp [Expr.reads, hx])]

/-! ## Writing -/

theorem writeAt_get (zero : V) (d : List V) (o : Nat) (vs : List V) (k : Nat) (h : vs ≠ []) :
    (writeAt zero d o vs)[k]? = if k < o then (if k < d.length then d[k]? else some zero) else if k < o + vs.length then vs[k - o]? else d[k]? := by
  unfold writeAt
  rw [if_neg h]
  have hl : ((d ++ List.replicate (o - d.length) zero).take o).length = o := by
    simp; omega
  by_cases h1 : k < o
  · rw [if_pos h1, List.append_assoc, List.getElem?_append_left (by rw [hl]; exact h1), List.getElem?_take_of_lt h1]
    by_cases h2 : k < d.length
    · rw [if_pos h2, List.getElem?_append_left h2]
    · rw [if_neg h2, List.getElem?_append_right (by omega), List.getElem?_replicate, if_pos (by omega)]
  · rw [if_neg h1, List.append_assoc, List.getElem?_append_right (by rw [hl]; omega), hl]
    by_cases h2 : k < o + vs.length
    · rw [if_pos h2, List.getElem?_append_left (by omega)]
    · rw [if_neg h2, List.getElem?_append_right (by omega), List.getElem?_drop]
      congr 1
      omega

theorem writeAt_length (zero : V) (d : List V) (o : Nat) (vs : List V) (n : Nat) (h1 : d.length ≤ n) (h2 : vs ≠ [] → o + vs.length ≤ n) : (writeAt zero d o vs).length ≤ n := by
  unfold writeAt
  by_cases h : vs = []
  · rw [if_pos h]; exact h1
  · rw [if_neg h]
    have := h2 h
    simp
    omega

end NBK.SaveObj
