import Verif.CatObj.IndexProps

/-! # `CatalogSource` objects: what a column is, and which columns there are -/
set_option linter.unusedSimpArgs false
namespace NBK.CatObj
open NBK.Slicing (Index)

variable {ρ δ V : Type}

/-! ## Dictionaries -/

theorem get_cons {β : Type} (k : String) (p : String × β) (l : List (String × β)) : get k (p :: l) = if p.1 = k then some p.2 else get k l := by
  unfold get
  by_cases h : p.1 = k
  · simp [h]
  · have : (p.1 == k) = false := by simpa using h
    simp [h, this]

theorem get_append {β : Type} (k : String) (a b : List (String × β)) : get k (a ++ b) = (get k a).or (get k b) := by
  induction a with
  | nil => simp [get]
  | cons p a ih =>
    rw [List.cons_append, get_cons, get_cons, ih]
    split <;> simp

theorem get_erase {β : Type} (k k' : String) (l : List (String × β)) : get k' (erase k l) = if k' = k then none else get k' l := by
  unfold erase
  induction l with
  | nil => simp [get]
  | cons p l ih =>
    rw [List.filter_cons]
    by_cases hp : p.1 = k
    · rw [if_neg (by simpa using hp), ih, get_cons]
      by_cases hk : k' = k
      · simp [hk]
      · rw [if_neg hk, if_neg hk, if_neg (by rw [hp]; exact fun h => hk h.symm)]
    · rw [if_pos (by simpa using hp), get_cons, get_cons, ih]
      by_cases hk : k' = k
      · subst hk; simp [hp]
      · simp [hk]

theorem get_put {β : Type} (k k' : String) (v : β) (l : List (String × β)) : get k' (put k v l) = if k' = k then some v else get k' l := by
  have h := get_erase k k' l
  unfold erase at h
  unfold put
  rw [get_append, h, get_cons]
  by_cases hk : k' = k
  · simp [hk]
  · rw [if_neg hk, if_neg hk, if_neg fun e => hk e.symm]
    cases get k' l <;> simp [get]

theorem mem_names {β : Type} (k : String) (l : List (String × β)) : k ∈ l.map Prod.fst ↔ (get k l).isSome := by
  induction l with
  | nil => simp [get]
  | cons p l ih =>
    rw [get_cons, List.map_cons, List.mem_cons, ih]
    by_cases h : p.1 = k
    · simp [h]
    · rw [if_neg h]
      exact ⟨fun h' => h'.resolve_left fun e => h e.symm, Or.inr⟩

theorem get_mem {β : Type} (k : String) (v : β) (l : List (String × β)) (h : get k l = some v) : (k, v) ∈ l := by
  induction l with
  | nil => cases h
  | cons p l ih =>
    rw [get_cons] at h
    split at h
    · rename_i hp; cases h; rw [← hp]; exact List.mem_cons_self
    · exact List.mem_cons_of_mem _ (ih h)

theorem get_of_mem {β : Type} (k : String) (v : β) (l : List (String × β)) (hn : (l.map Prod.fst).Nodup) (h : (k, v) ∈ l) : get k l = some v := by
  induction l with
  | nil => cases h
  | cons p l ih =>
    rw [List.map_cons, List.nodup_cons] at hn
    rw [get_cons]
    rcases List.mem_cons.mp h with e | h
    · rw [← e]; simp
    · rw [if_neg]
      · exact ih hn.2 h
      · intro e
        exact hn.1 (by rw [e]; exact List.mem_map.mpr ⟨_, h, rfl⟩)

/-- A dictionary filled entry by entry. -/
theorem get_fold {β : Type} (k : String) : ∀ (cols acc : List (String × β)), (cols.map Prod.fst).Nodup →
    get k (cols.foldl (fun l p => put p.1 p.2 l) acc) = (get k cols).or (get k acc)
  | [], acc, _ => by simp [get]
  | p :: cols, acc, hn => by
    rw [List.map_cons, List.nodup_cons] at hn
    rw [List.foldl_cons, get_fold k cols _ hn.2, get_put, get_cons]
    by_cases h : p.1 = k
    · subst h
      have : get p.1 cols = none := by
        cases hg : get p.1 cols with
        | none => rfl
        | some v => exact absurd ((mem_names p.1 cols).mpr (by rw [hg]; rfl)) hn.1
      simp [this]
    · rw [if_neg h, if_neg fun e => h e.symm]

/-! ## Columns -/

/-- A column that can be computed: it refers to arrays and rows that exist. -/
def Col.Ok (bufs : List (List ρ)) : Col ρ → Prop
  | .buf b => b < bufs.length
  | .const _ _ => True
  | .rows c idx => c.Ok bufs ∧ ∀ i ∈ idx, i < c.len bufs
  | .copy c => c.Ok bufs

/-- The length that is known is the number of computed rows. -/
theorem eval_length (bufs : List (List ρ)) : ∀ c : Col ρ, c.Ok bufs → (c.eval bufs).length = c.len bufs
  | .buf b, _ => rfl
  | .const n x, _ => List.length_replicate
  | .rows c idx, h => by
    have ih := eval_length bufs c h.1
    have h2 := h.2
    unfold Col.eval Col.len
    clear h
    induction idx with
    | nil => rfl
    | cons i idx ihx =>
      have hi : i < (c.eval bufs).length := by rw [ih]; exact h2 i List.mem_cons_self
      rw [List.filterMap_cons, List.getElem?_eq_getElem hi]
      simp only [List.length_cons]
      rw [ihx fun j hj => h2 j (List.mem_cons_of_mem _ hj)]
  | .copy c, h => eval_length bufs c h

/-- Arrays may be added and written, but keep their lengths. -/
def Grow (bufs bufs' : List (List ρ)) : Prop := ∀ (b : Nat) (x : List ρ), bufs[b]? = some x → ∃ x', bufs'[b]? = some x' ∧ x'.length = x.length

theorem grow_refl (bufs : List (List ρ)) : Grow bufs bufs := fun _ x h => ⟨x, h, rfl⟩

theorem grow_len (bufs bufs' : List (List ρ)) (hg : Grow bufs bufs') : ∀ c : Col ρ, c.Ok bufs → c.Ok bufs' ∧ c.len bufs' = c.len bufs
  | .buf b, h => by
    have h' : b < bufs.length := h
    obtain ⟨x', hx, hl⟩ := hg b _ (List.getElem?_eq_getElem h')
    refine ⟨(List.getElem?_eq_some_iff.mp hx).1, ?_⟩
    unfold Col.len
    rw [hx, List.getElem?_eq_getElem h']
    exact hl
  | .const n x, _ => ⟨trivial, rfl⟩
  | .rows c idx, h => by
    have ih := grow_len bufs bufs' hg c h.1
    exact ⟨⟨ih.1, fun i hi => by rw [ih.2]; exact h.2 i hi⟩, rfl⟩
  | .copy c, h => grow_len bufs bufs' hg c h

/-- Picked rows: those of the index, and as many as were announced. -/
theorem pick_spec (bufs : List (List ρ)) (c : Col ρ) (hc : c.Ok bufs) (ix : Index) (x : Col ρ) (h : pick bufs c ix = .ok x) :
    x.Ok bufs ∧ NBK.Slicing.newSize (c.len bufs) ix = .ok (x.len bufs) ∧ NBK.Slicing.colIndex (c.eval bufs) ix = .ok (x.eval bufs) := by
  unfold pick at h
  cases hx : NBK.Slicing.colIndex (List.range (c.len bufs)) ix with
  | error e => rw [hx] at h; cases h
  | ok idx =>
    rw [hx] at h
    cases h
    refine ⟨⟨hc, fun i hi => List.mem_range.mp (colIndex_mem _ ix idx hx i hi)⟩, ?_, ?_⟩
    · have := colIndex_size _ ix idx hx
      rwa [List.length_range] at this
    · rw [colIndex_pos, eval_length bufs c hc, hx]
      rfl

theorem pick_ok_iff (bufs : List (List ρ)) (c : Col ρ) (ix : Index) : (∃ x, pick bufs c ix = .ok x) ↔ Fits (c.len bufs) ix := by
  have h := colIndex_ok_iff (List.range (c.len bufs)) ix
  rw [List.length_range] at h
  rw [← h]
  unfold pick
  cases NBK.Slicing.colIndex (List.range (c.len bufs)) ix with
  | error e => simp
  | ok idx => simp

/-! ## The columns of an object -/

theorem mem_columns (o : Obj ρ δ) (c : String) : c ∈ o.columns ↔ (get c o.cls.hard).isSome ∨ (get c o.over).isSome ∨ (get c o.cls.dflt).isSome := by
  unfold Obj.columns
  rw [List.mem_insertionSort, List.mem_dedup, List.mem_append, List.mem_append, mem_names, mem_names, mem_names, or_assoc]

/-- The columns that are listed are the ones that can be read; anything else is a KeyError. -/
theorem obj_read_iff (o : Obj ρ δ) (c : String) : (∃ x, o.read c = .ok x) ↔ c ∈ o.columns := by
  rw [mem_columns]
  unfold Obj.read
  cases get c o.over with
  | some x => simp
  | none =>
    cases get c o.cls.hard with
    | some f => simp
    | none => cases get c o.cls.dflt <;> simp

theorem obj_read_error (o : Obj ρ δ) (c : String) (h : c ∉ o.columns) : o.read c = .error .keyError := by
  rw [mem_columns] at h
  have e1 : get c o.over = none := by
    cases e : get c o.over with
    | none => rfl
    | some x => exact absurd (Or.inr (Or.inl (by rw [e]; rfl))) h
  have e2 : get c o.cls.hard = none := by
    cases e : get c o.cls.hard with
    | none => rfl
    | some x => exact absurd (Or.inl (by rw [e]; rfl)) h
  have e3 : get c o.cls.dflt = none := by
    cases e : get c o.cls.dflt with
    | none => rfl
    | some x => exact absurd (Or.inr (Or.inr (by rw [e]; rfl))) h
  unfold Obj.read
  rw [e1, e2, e3]

/-- `columns` is in order and has no repetition. -/
theorem columns_sorted (o : Obj ρ δ) : o.columns.Pairwise (· < ·) := by
  have h1 : o.columns.Pairwise (· ≤ ·) := List.pairwise_insertionSort _ _
  have h2 : o.columns.Nodup := by
    unfold Obj.columns
    exact (List.perm_insertionSort _ _).nodup_iff.mpr (List.nodup_dedup _)
  exact (h1.and h2).imp fun h => lt_of_le_of_ne h.1 h.2

/-- A column is default exactly if it was not set and the class has it as a default and not as a hard-coded one. -/
theorem obj_default (o : Obj ρ δ) (c : String) (x : Col ρ) (d : Bool) (h : o.read c = .ok (x, d)) :
    d = true ↔ get c o.over = none ∧ get c o.cls.hard = none := by
  unfold Obj.read at h
  split at h
  · rename_i y hy; cases h; simp [hy]
  · rename_i hy
    split at h
    · rename_i f hf; cases h; simp [hf]
    · rename_i hf
      split at h
      · cases h; simp [hy, hf]
      · cases h

/-! ## Owners -/

/-- The base of an object is older. -/
def Chain (objs : List (Obj ρ δ)) : Prop := ∀ (i : Nat) (o : Obj ρ δ), objs[i]? = some o → ∀ b, o.base = some b → b < i

theorem owner_none (objs : List (Obj ρ δ)) (i : Nat) (h : (objs[i]?).bind Obj.base = none) : owner objs i = i := by
  rw [owner, h]

theorem owner_some (objs : List (Obj ρ δ)) (i b : Nat) (h : (objs[i]?).bind Obj.base = some b) (hb : b < i) : owner objs i = owner objs b := by
  rw [owner, h]
  simp [hb]

theorem owner_le (objs : List (Obj ρ δ)) (i : Nat) : owner objs i ≤ i := by
  induction i using Nat.strongRecOn with
  | ind i ih =>
    cases h : (objs[i]?).bind Obj.base with
    | none => rw [owner_none objs i h]
    | some b =>
      by_cases hb : b < i
      · rw [owner_some objs i b h hb]; exact Nat.le_trans (ih b hb) (by omega)
      · rw [owner, h]; simp [hb]

/-- Only the bases of the objects up to `i` matter. -/
theorem owner_congr (objs objs' : List (Obj ρ δ)) (i : Nat) (h : ∀ k ≤ i, (objs[k]?).bind Obj.base = (objs'[k]?).bind Obj.base) : owner objs i = owner objs' i := by
  induction i using Nat.strongRecOn with
  | ind i ih =>
    cases hb : (objs[i]?).bind Obj.base with
    | none => rw [owner_none objs i hb, owner_none objs' i (by rw [← h i (Nat.le_refl i)]; exact hb)]
    | some b =>
      have hb' : (objs'[i]?).bind Obj.base = some b := by rw [← h i (Nat.le_refl i)]; exact hb
      by_cases hlt : b < i
      · rw [owner_some objs i b hb hlt, owner_some objs' i b hb' hlt]
        exact ih b hlt fun k hk => h k (by omega)
      · rw [owner, owner, hb, hb']
        simp [hlt]

/-- The owner has no base. -/
theorem owner_base (objs : List (Obj ρ δ)) (hc : Chain objs) (i : Nat) : (objs[owner objs i]?).bind Obj.base = none := by
  induction i using Nat.strongRecOn with
  | ind i ih =>
    cases hb : (objs[i]?).bind Obj.base with
    | none => rw [owner_none objs i hb]; exact hb
    | some b =>
      have hlt : b < i := by
        cases ho : objs[i]? with
        | none => rw [ho] at hb; cases hb
        | some o => rw [ho] at hb; exact hc i o ho b hb
      rw [owner_some objs i b hb hlt]
      exact ih b hlt

theorem owner_owner (objs : List (Obj ρ δ)) (hc : Chain objs) (i : Nat) : owner objs (owner objs i) = owner objs i :=
  owner_none objs _ (owner_base objs hc i)

theorem own_some (w : World ρ δ V) (i : Nat) (hi : i < w.objs.length) : ∃ o, w.own i = some o :=
  ⟨_, List.getElem?_eq_getElem (Nat.lt_of_le_of_lt (owner_le w.objs i) hi)⟩

end NBK.CatObj
