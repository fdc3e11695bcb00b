import Verif.ArrObj.Props
import Mathlib.Data.List.Dedup

/-!
# C121: the columns of an `ArrayCatalog` and their attributes
-/
set_option linter.unusedSimpArgs false
namespace NBK.ArrObj

variable {ρ : Type}

/-! ## What never changes -/

theorem step_obj (st : State ρ) (o : Op ρ) : (st.step o).1.obj = st.obj ∧ (st.step o).1.one = st.one := by
  cases o <;> simp only [State.step] <;> (try split) <;> (try split) <;> (try split) <;> simp

/-- The names of the columns of the data, the sizes and the attributes are those found by the constructor, whatever is done to the data afterwards. -/
theorem run_obj : ∀ (ops : List (Op ρ)) (st : State ρ), (st.run ops).obj = st.obj ∧ (st.run ops).one = st.one
  | [], _ => ⟨rfl, rfl⟩
  | o :: l, st => by
    obtain ⟨h1, h2⟩ := run_obj l (st.step o).1
    obtain ⟨h3, h4⟩ := step_obj st o
    exact ⟨h1.trans h3, h2.trans h4⟩

/-- An operation that is refused changes nothing. -/
theorem refused_unchanged (st : State ρ) (o : Op ρ) (e : Err) (h : (st.step o).2 = some e) : (st.step o).1 = st := by
  cases o with
  | writeArr i rows => simp only [State.step] at h ⊢; split at h <;> simp_all
  | putDict d k i => simp [State.step] at h
  | delDict d k => simp only [State.step] at h ⊢; split at h <;> simp_all
  | setCol c v =>
    simp only [State.step] at h ⊢
    cases hv : v.content st with
    | none => rfl
    | some x =>
      rw [hv] at h
      dsimp only at h ⊢
      split at h <;> simp_all
  | delCol c =>
    simp only [State.step] at h ⊢
    split at h
    · simp_all
    · split at h <;> simp_all
  | access c =>
    simp only [State.step] at h ⊢
    cases hv : st.read c with
    | ok a => rw [hv] at h; simp at h
    | error x => rfl
  | index a idx =>
    simp only [State.step] at h ⊢
    cases hv : st.accs[a]? with
    | none => rfl
    | some x =>
      rw [hv] at h
      dsimp only at h ⊢
      split at h
      · cases h
      · rename_i hn
        rw [if_neg hn]
  | accAttr a k v =>
    simp only [State.step] at h ⊢
    cases hv : st.accs[a]? with
    | none => rfl
    | some x => rw [hv] at h; simp at h

/-! ## Columns -/

/-- The column that an assignment sets. -/
def colSet (c : String) : Op ρ → Bool
  | .setCol c' _ => c' = c
  | .delCol c' => c' = c
  | _ => false

/-- **Reading a column** of the data that was never assigned: the rows of the array that the data have now under its name. -/
theorem column_now (m : Mem ρ) (o : Obj) (one : ρ) (ops : List (Op ρ)) (c : String) (hc : c ∈ o.names) (ha : ∀ x ∈ ops, colSet c x = false) :
    let st := (State.start m o one).run ops
    (st.read c).map (fun a => a.content.eval st.mem) =
      match (o.src.entries st.mem).find? fun p => p.1 = c with
      | some p => .ok (st.mem.arrs p.2).rows
      | none => .error .keyError := by
  have hover : ∀ (ops : List (Op ρ)) (st : State ρ), (∀ x ∈ ops, colSet c x = false) → (st.run ops).over c = st.over c := by
    intro ops
    induction ops with
    | nil => intros; rfl
    | cons x l ih =>
      intro st h
      have h1 := ih (st.step x).1 (fun y hy => h y (List.mem_cons_of_mem _ hy))
      refine h1.trans ?_
      have hx := h x List.mem_cons_self
      cases x with
      | writeArr i rows => simp only [State.step]; split <;> rfl
      | putDict d k i => rfl
      | delDict d k => simp only [State.step]; split <;> rfl
      | setCol c' v =>
        have hne : ¬ c = c' := fun e => by simp [colSet, e] at hx
        simp only [State.step]
        split
        · rfl
        · split <;> simp [hne]
      | delCol c' =>
        have hne : ¬ c = c' := fun e => by simp [colSet, e] at hx
        simp only [State.step]
        split
        · rfl
        · split <;> simp [hne]
      | access c' => simp only [State.step]; split <;> rfl
      | index a idx =>
        simp only [State.step]
        split
        · rfl
        · split <;> rfl
      | accAttr a k v => simp only [State.step]; split <;> rfl
  intro st
  have h1 : st.over c = none := hover ops _ ha
  have h2 : st.obj = o := (run_obj ops _).1
  unfold State.read
  rw [h1, h2]
  simp only [if_pos hc, Src.get]
  cases (o.src.entries st.mem).find? fun p => decide (p.1 = c) with
  | none => rfl
  | some p => rfl

/-- An assigned column has the rows of the value assigned last, until it is deleted. -/
theorem column_assigned (st : State ρ) (c : String) (v : Given) (st' : State ρ) (h : st.step (.setCol c v) = (st', none)) (ops : List (Op ρ))
    (ha : ∀ x ∈ ops, colSet c x = false) : ∃ x a, v.content st = some x ∧ (st'.run ops).read c = .ok a ∧ a.content = x := by
  have hover : ∀ (ops : List (Op ρ)) (st : State ρ), (∀ x ∈ ops, colSet c x = false) → (st.run ops).over c = st.over c := by
    intro ops
    induction ops with
    | nil => intros; rfl
    | cons x l ih =>
      intro st h
      have h1 := ih (st.step x).1 (fun y hy => h y (List.mem_cons_of_mem _ hy))
      refine h1.trans ?_
      have hx := h x List.mem_cons_self
      cases x with
      | writeArr i rows => simp only [State.step]; split <;> rfl
      | putDict d k i => rfl
      | delDict d k => simp only [State.step]; split <;> rfl
      | setCol c' v =>
        have hne : ¬ c = c' := fun e => by simp [colSet, e] at hx
        simp only [State.step]
        split
        · rfl
        · split <;> simp [hne]
      | delCol c' =>
        have hne : ¬ c = c' := fun e => by simp [colSet, e] at hx
        simp only [State.step]
        split
        · rfl
        · split <;> simp [hne]
      | access c' => simp only [State.step]; split <;> rfl
      | index a idx =>
        simp only [State.step]
        split
        · rfl
        · split <;> rfl
      | accAttr a k v => simp only [State.step]; split <;> rfl
  simp only [State.step] at h
  cases hv : v.content st with
  | none => rw [hv] at h; simp at h
  | some x =>
    rw [hv] at h
    dsimp only at h
    split at h
    · injection h with h _
      refine ⟨x, ⟨x, false, fun _ => none⟩, rfl, ?_, rfl⟩
      have h1 : (st'.run ops).over c = some x := by
        rw [hover ops st' ha, ← h]
        simp
      unfold State.read
      rw [h1]
    · injection h with _ h
      cases h

/-- A structured array cannot be exchanged: dictionaries of the caller play no role. -/
theorem fields_fixed (l : List (String × Nat)) (m m' : Mem ρ) : (Src.fields l).entries m = (Src.fields l).entries m' := rfl

/-- A dictionary can: the column is the new array at once, although the catalog was made from the old one. -/
theorem dict_live (st : State ρ) (d : Nat) (k : String) (i : Nat) (hs : st.obj.src = .dict d) (hk : k ∈ st.obj.names) (ho : st.over k = none) :
    ((st.step (.putDict d k i)).1.read k).map (fun a => a.content.eval st.mem) = .ok (st.mem.arrs i).rows := by
  have h1 : (st.step (.putDict d k i)).1.over k = none := ho
  have h2 : (st.step (.putDict d k i)).1.obj = st.obj := rfl
  unfold State.read
  rw [h1, h2, hs]
  simp only [if_pos hk]
  have : (Src.dict d).get (st.step (.putDict d k i)).1.mem k = some i := by
    have hd : (st.step (.putDict d k i)).1.mem.dicts d = ((st.mem.dicts d).filter fun p => p.1 ≠ k) ++ [(k, i)] := by
      simp [State.step, Mem.putDict]
    simp only [Src.get, Src.entries, hd, List.find?_append]
    have : ((st.mem.dicts d).filter fun p => p.1 ≠ k).find? (fun p => decide (p.1 = k)) = none := by
      rw [List.find?_eq_none]
      intro p hp
      simpa using (List.mem_filter.1 hp).2
    rw [this]
    simp
  rw [this]
  rfl

/-- A key added to the dictionary is no column of the catalog. -/
theorem dict_add (st : State ρ) (d : Nat) (k : String) (i : Nat) (hk : k ∉ st.obj.names) (hd : k ∉ defaults) (ho : st.over k = none) :
    (st.step (.putDict d k i)).1.read k = .error .keyError ∧ (st.step (.putDict d k i)).1.columns = st.columns := by
  constructor
  · have h1 : (st.step (.putDict d k i)).1.over k = none := ho
    have h2 : (st.step (.putDict d k i)).1.obj = st.obj := rfl
    unfold State.read
    rw [h1, h2]
    simp [hk, hd]
  · rfl

/-! ## The length of columns -/

theorem eval_length (m m' : Mem ρ) (h : ∀ i, (m'.arrs i).rows.length = (m.arrs i).rows.length) : ∀ c : Content ρ, (c.eval m').length = (c.eval m).length
  | .ref i => h i
  | .const _ => rfl
  | .pick c idx => by
    have hc := eval_length m m' h c
    simp only [Content.eval]
    induction idx with
    | nil => rfl
    | cons i l ih =>
      by_cases hi : i < (c.eval m).length
      · have hi' : i < (c.eval m').length := hc ▸ hi
        simp [List.filterMap_cons, hi, hi', ih]
      · have hi' : ¬ i < (c.eval m').length := hc ▸ hi
        rw [List.filterMap_cons, List.filterMap_cons, List.getElem?_eq_none (Nat.le_of_not_lt hi), List.getElem?_eq_none (Nat.le_of_not_lt hi')]
        exact ih

/-- All columns of a catalog made from a structured array keep the size of the catalog, whatever is done. -/
theorem fields_sizes (m : Mem ρ) (o : Obj) (one : ρ) (l : List (String × Nat)) (hs : o.src = .fields l) (hl : ∀ p ∈ l, (m.arrs p.2).rows.length = o.size)
    (ops : List (Op ρ)) (c : String) (a : Acc ρ) (h : ((State.start m o one).run ops).read c = .ok a) :
    (a.content.eval ((State.start m o one).run ops).mem).length = o.size := by
  have inv : ∀ (ops : List (Op ρ)) (st : State ρ), st.obj = o → (∀ p ∈ l, (st.mem.arrs p.2).rows.length = o.size) →
      (∀ n x, st.over n = some x → (x.eval st.mem).length = o.size) →
      (st.run ops).obj = o ∧ (∀ p ∈ l, ((st.run ops).mem.arrs p.2).rows.length = o.size) ∧
      (∀ n x, (st.run ops).over n = some x → (x.eval (st.run ops).mem).length = o.size) := by
    intro ops
    induction ops with
    | nil => intro st h1 h2 h3; exact ⟨h1, h2, h3⟩
    | cons x ops ih =>
      intro st h1 h2 h3
      have hobj : (st.step x).1.obj = o := (step_obj st x).1.trans h1
      have hmem : ∀ i, ((st.step x).1.mem.arrs i).rows.length = (st.mem.arrs i).rows.length := by
        intro i
        cases x with
        | writeArr j rows =>
          simp only [State.step]
          split
          · rename_i hj
            dsimp only
            by_cases e : i = j
            · subst e; simp [hj]
            · simp [e]
          · rfl
        | putDict d k j => rfl
        | delDict d k => simp only [State.step]; split <;> rfl
        | setCol c' v => simp only [State.step]; (split <;> try split) <;> rfl
        | delCol c' => simp only [State.step]; (split <;> try split) <;> rfl
        | access c' => simp only [State.step]; split <;> rfl
        | index a idx => simp only [State.step]; (split <;> try split) <;> rfl
        | accAttr a k v => simp only [State.step]; split <;> rfl
      refine ih (st.step x).1 hobj (fun p hp => (hmem p.2).trans (h2 p hp)) ?_
      intro n y hy
      rw [eval_length st.mem (st.step x).1.mem hmem y]
      cases x with
      | writeArr j rows =>
        simp only [State.step] at hy
        split at hy <;> exact h3 n y hy
      | putDict d k j => exact h3 n y hy
      | delDict d k =>
        simp only [State.step] at hy
        split at hy <;> exact h3 n y hy
      | setCol c' v =>
        simp only [State.step] at hy
        cases hv : v.content st with
        | none => rw [hv] at hy; exact h3 n y hy
        | some w =>
          rw [hv] at hy
          dsimp only at hy
          split at hy
          · rename_i hw
            dsimp only at hy
            by_cases e : n = c'
            · rw [if_pos e] at hy
              injection hy with hy
              rw [← hy, hw, h1]
            · rw [if_neg e] at hy
              exact h3 n y hy
          · exact h3 n y hy
      | delCol c' =>
        simp only [State.step] at hy
        split at hy
        · exact h3 n y hy
        · split at hy
          · dsimp only at hy
            by_cases e : n = c'
            · rw [if_pos e] at hy; cases hy
            · rw [if_neg e] at hy; exact h3 n y hy
          · exact h3 n y hy
      | access c' =>
        simp only [State.step] at hy
        split at hy <;> exact h3 n y hy
      | index a idx =>
        simp only [State.step] at hy
        split at hy
        · exact h3 n y hy
        · split at hy <;> exact h3 n y hy
      | accAttr a k v =>
        simp only [State.step] at hy
        split at hy <;> exact h3 n y hy
  obtain ⟨i1, i2, i3⟩ := inv ops (State.start m o one) rfl hl (by intro n x hx; cases hx)
  generalize (State.start m o one).run ops = st at *
  unfold State.read at h
  cases ho : st.over c with
  | some x =>
    rw [ho] at h
    injection h with h
    subst h
    exact i3 c x ho
  | none =>
    rw [ho] at h
    dsimp only at h
    split at h
    · rw [i1, hs] at h
      cases hg : (Src.fields l).get st.mem c with
      | none => rw [hg] at h; cases h
      | some i =>
        rw [hg] at h
        injection h with h
        subst h
        obtain ⟨p, hp, rfl⟩ := Option.map_eq_some_iff.1 hg
        exact i2 p (List.mem_of_find?_eq_some hp)
    · split at h
      · injection h with h
        subst h
        simp [Content.eval, i1]
      · cases h

/-! ## Attributes of columns -/

/-- Indexing an accessor: the rows of the index, and the attributes of the accessor; not a default column. -/
theorem index_spec (st : State ρ) (a : Nat) (idx : List Nat) (x : Acc ρ) (hx : st.accs[a]? = some x) (hi : ∀ i ∈ idx, i < (x.content.eval st.mem).length) :
    ∃ st' y, st.step (.index a idx) = (st', none) ∧ st'.accs[st.accs.length]? = some y ∧ y.attrs = x.attrs ∧ y.isDefault = false ∧
      (y.content.eval st.mem) = idx.filterMap (fun i => (x.content.eval st.mem)[i]?) ∧ (y.content.eval st.mem).length = idx.length ∧
      ∀ b < st.accs.length, st'.accs[b]? = st.accs[b]? := by
  refine ⟨{ st with accs := st.accs ++ [⟨.pick x.content idx, false, x.attrs⟩] }, ⟨.pick x.content idx, false, x.attrs⟩, ?_, ?_, rfl, rfl, rfl, ?_, ?_⟩
  · simp only [State.step, hx]
    rw [if_pos]
    rw [List.all_eq_true]
    intro i h
    simpa using hi i h
  · simp
  · simp only [Content.eval]
    clear hx
    induction idx with
    | nil => rfl
    | cons i l ih =>
      have h0 := hi i List.mem_cons_self
      simp [List.filterMap_cons, h0, ih fun j hj => hi j (List.mem_cons_of_mem _ hj)]
  · intro b hb
    exact List.getElem?_append_left hb

/-- Setting an attribute on an accessor changes that accessor only. -/
theorem attr_local (st : State ρ) (a : Nat) (k : String) (v : Nat) (b : Nat) (hb : b ≠ a) : (st.step (.accAttr a k v)).1.accs[b]? = st.accs[b]? := by
  simp only [State.step]
  cases st.accs[a]? with
  | none => rfl
  | some x => exact List.getElem?_set_ne (Ne.symm hb)

theorem attr_set (st : State ρ) (a : Nat) (k : String) (v : Nat) (x : Acc ρ) (hx : st.accs[a]? = some x) :
    ∃ y, (st.step (.accAttr a k v)).1.accs[a]? = some y ∧ y.attrs k = some v ∧ y.content = x.content := by
  have hl : a < st.accs.length := (List.getElem?_eq_some_iff.1 hx).1
  refine ⟨⟨x.content, x.isDefault, fun y => if y = k then some v else x.attrs y⟩, ?_, by simp, rfl⟩
  simp only [State.step, hx]
  exact List.getElem?_set_self hl

theorem read_no_attrs (st : State ρ) (c : String) (a : Acc ρ) (h : st.read c = .ok a) : ∀ k, a.attrs k = none := by
  unfold State.read at h
  cases ho : st.over c with
  | some x => rw [ho] at h; injection h with h; subst h; intro k; rfl
  | none =>
    rw [ho] at h
    dsimp only at h
    split at h
    · split at h
      · injection h with h; subst h; intro k; rfl
      · cases h
    · split at h
      · injection h with h; subst h; intro k; rfl
      · cases h

/-- **Attributes of columns are never saved**: whatever attributes are set on columns, and whatever is assigned, `save` writes none of them. -/
theorem saved_no_attrs (st : State ρ) (ops : List (Op ρ)) (cols : List String) (l : List (String × List ρ × (String → Option Nat)))
    (h : (st.run ops).saved cols = .ok l) : ∀ x ∈ l, ∀ k, x.2.2 k = none := by
  generalize st.run ops = st at h
  unfold State.saved at h
  cases hm : (cols.mapM fun c => (st.read c).map fun a => (c, a)) with
  | error e => rw [hm] at h; cases h
  | ok r =>
    rw [hm] at h
    injection h with h
    subst h
    have key : ∀ (cols : List String) (r : List (String × Acc ρ)), (cols.mapM fun c => (st.read c).map fun a => (c, a)) = .ok r →
        ∀ p ∈ r, ∀ k, p.2.attrs k = none := by
      intro cols
      induction cols with
      | nil => intro r hr p hp; injection hr with hr; subst hr; cases hp
      | cons c cols ih =>
        intro r hr p hp
        rw [List.mapM_cons] at hr
        cases h1 : st.read c with
        | error e => rw [h1] at hr; cases hr
        | ok a =>
          rw [h1] at hr
          cases h2 : (cols.mapM fun c => (st.read c).map fun a => (c, a)) with
          | error e => rw [h2] at hr; cases hr
          | ok r' =>
            rw [h2] at hr
            injection hr with hr
            subst hr
            rcases List.mem_cons.1 hp with rfl | hp
            · exact read_no_attrs st c a h1
            · exact ih r' h2 p hp
    intro x hx k
    obtain ⟨p, hp, rfl⟩ := List.mem_map.1 hx
    exact key cols r hm p (List.mem_filter.1 hp).1 k

/-! ## `read`, `save`, `persist` -/

theorem mapM_read (st : State ρ) (β : Type) (f : String → Acc ρ → β) (g : String → Acc ρ) : ∀ cols : List String, (∀ c ∈ cols, st.read c = .ok (g c)) →
    (cols.mapM fun c => (st.read c).map fun a => f c a) = .ok (cols.map fun c => f c (g c))
  | [], _ => rfl
  | c :: cols, h => by
    rw [List.mapM_cons, h c List.mem_cons_self, mapM_read st β f g cols (fun x hx => h x (List.mem_cons_of_mem _ hx))]
    rfl

/-- `read(columns)`: the columns in the order asked for, or a ValueError if one does not exist. -/
theorem read_spec (st : State ρ) (cols : List String) :
    (∀ g : String → Acc ρ, (∀ c ∈ cols, c ∈ st.columns ∧ st.read c = .ok (g c)) → st.readAll cols = .ok (cols.map g)) ∧
    ((∃ c ∈ cols, c ∉ st.columns) → st.readAll cols = .error .valueError) := by
  constructor
  · intro g h
    unfold State.readAll
    rw [if_neg]
    · have := mapM_read st (Acc ρ) (fun _ a => a) g cols (fun c hc => (h c hc).2)
      have e : (fun c => (st.read c).map fun a => a) = st.read := by
        funext c
        cases st.read c <;> rfl
      rw [e] at this
      exact this
    · intro hc
      obtain ⟨c, hm, hn⟩ := List.any_eq_true.1 hc
      simp only [decide_not, Bool.not_eq_eq_eq_not, Bool.not_true, decide_eq_false_iff_not] at hn
      exact hn (h c hm).1
  · rintro ⟨c, hm, hn⟩
    unfold State.readAll
    rw [if_pos]
    exact List.any_eq_true.2 ⟨c, hm, by simpa using hn⟩

/-- What is saved: the rows of every column that is not a default, in order. -/
theorem saved_spec (st : State ρ) (cols : List String) (g : String → Acc ρ) (h : ∀ c ∈ cols, st.read c = .ok (g c)) :
    ∃ l, st.saved cols = .ok l ∧ l.map (fun x => (x.1, x.2.1)) =
      (cols.filter fun c => !(g c).isDefault).map fun c => (c, (g c).content.eval st.mem) := by
  refine ⟨_, by unfold State.saved; rw [mapM_read st _ (fun c a => (c, a)) g cols h]; rfl, ?_⟩
  rw [List.map_map, List.filter_map, List.map_map]
  rfl

/-- **`persist`**: the columns asked for (all by default) with the rows they have now, of the same attributes. -/
theorem persist_spec (st : State ρ) (cols : List String) (g : String → Acc ρ) (hne : cols ≠ []) (h : ∀ c ∈ cols, st.read c = .ok (g c)) (n : Nat)
    (hl : ∀ c ∈ cols, ((g c).content.eval st.mem).length = n) :
    ∃ p, st.persist (some cols) = .ok p ∧ p.size = n ∧ p.attrs = st.obj.attrs ∧ (∀ c, c ∈ p.names ↔ c ∈ cols) ∧ p.names.Pairwise (· ≤ ·) ∧ p.names.Nodup ∧
      (∀ c ∈ cols, p.cols c = some ((g c).content.eval st.mem)) ∧ ∀ c, c ∉ cols → p.cols c = none := by
  have hm := mapM_read st _ (fun c a => (c, a.content.eval st.mem)) g cols h
  have hfst : (cols.map fun c => (c, (g c).content.eval st.mem)).map Prod.fst = cols := by
    rw [List.map_map]; simp [Function.comp_def]
  have hget : ∀ c, ((cols.map fun c => (c, (g c).content.eval st.mem)).reverse.find? fun p => p.1 = c).map Prod.snd =
      if c ∈ cols then some ((g c).content.eval st.mem) else none := by
    intro c
    by_cases hc : c ∈ cols
    · rw [if_pos hc]
      cases hf : (cols.map fun c => (c, (g c).content.eval st.mem)).reverse.find? fun p => decide (p.1 = c) with
      | none =>
        have := List.find?_eq_none.1 hf (c, (g c).content.eval st.mem) (List.mem_reverse.2 (List.mem_map.2 ⟨c, hc, rfl⟩))
        simp at this
      | some p =>
        have h1 := List.find?_some hf
        have h2 := List.mem_of_find?_eq_some hf
        simp only [decide_eq_true_eq] at h1
        rw [List.mem_reverse] at h2
        obtain ⟨d, _, rfl⟩ := List.mem_map.1 h2
        dsimp only at h1
        subst h1
        rfl
    · rw [if_neg hc, Option.map_eq_none_iff, List.find?_eq_none]
      intro p hp
      rw [List.mem_reverse] at hp
      obtain ⟨d, hd, rfl⟩ := List.mem_map.1 hp
      simp only [decide_eq_true_eq]
      rintro rfl
      exact hc hd
  have hmem : ∀ c, c ∈ cols.dedup.insertionSort (· ≤ ·) ↔ c ∈ cols := by
    intro c
    rw [List.mem_insertionSort, List.mem_dedup]
  unfold State.persist
  dsimp only [Option.getD_some]
  rw [hm]
  dsimp only [Except.bind]
  rw [hfst]
  cases hk : cols.dedup.insertionSort (· ≤ ·) with
  | nil =>
    obtain ⟨c, hc⟩ := List.exists_mem_of_ne_nil _ hne
    have := (hmem c).2 hc
    rw [hk] at this
    cases this
  | cons k ks =>
    have hkc : k ∈ cols := (hmem k).1 (by rw [hk]; exact List.mem_cons_self)
    dsimp only
    have hsz : ((((cols.map fun c => (c, (g c).content.eval st.mem)).reverse.find? fun p => p.1 = k).map Prod.snd).getD []).length = n := by
      rw [hget k, if_pos hkc, Option.getD_some, hl k hkc]
    simp only [hsz]
    rw [if_neg]
    · refine ⟨_, rfl, rfl, rfl, ?_, ?_, ?_, ?_, ?_⟩
      · intro c
        dsimp only
        rw [← hk]
        exact hmem c
      · dsimp only
        rw [← hk]
        exact List.pairwise_insertionSort _ _
      · dsimp only
        rw [← hk]
        exact (List.perm_insertionSort _ _).nodup_iff.2 (List.nodup_dedup cols)
      · intro c hc
        dsimp only
        rw [hget c, if_pos hc]
      · intro c hc
        dsimp only
        rw [hget c, if_neg hc]
    · intro hc
      obtain ⟨p, hp, hn⟩ := List.any_eq_true.1 hc
      obtain ⟨c, hcm, rfl⟩ := List.mem_map.1 hp
      simp [hl c hcm] at hn

/-- Persisting no columns is an IndexError; a column that does not exist is a KeyError. -/
theorem persist_refused (st : State ρ) : st.persist (some []) = .error .indexError ∧
    ∀ c l, st.read c = .error .keyError → st.persist (some (c :: l)) = .error .keyError := by
  refine ⟨rfl, ?_⟩
  intro c l h
  unfold State.persist
  dsimp only [Option.getD_some]
  rw [List.mapM_cons, h]
  rfl

/-- The columns that are listed after the program: the fields, the defaults, and what was assigned and not deleted since. -/
theorem columns_step (st : State ρ) (c : String) :
    (∀ v, (st.step (.setCol c v)).2 = none → c ∈ (st.step (.setCol c v)).1.columns) ∧
    ((st.step (.delCol c)).2 = none → (c ∈ (st.step (.delCol c)).1.columns ↔ c ∈ defaults)) ∧
    (∀ k : String, k ≠ c → (∀ v, k ∈ (st.step (.setCol c v)).1.columns ↔ k ∈ st.columns) ∧ (k ∈ (st.step (.delCol c)).1.columns ↔ k ∈ st.columns)) := by
  have mem : ∀ (s : State ρ) (k : String), k ∈ s.columns ↔ (k ∈ s.obj.names ∨ k ∈ s.overNames) ∨ k ∈ defaults := by
    intro s k
    unfold State.columns
    rw [List.mem_insertionSort, List.mem_dedup, List.mem_append, List.mem_append]
  refine ⟨?_, ?_, ?_⟩
  · intro v h
    rw [mem]
    cases hv : v.content st with
    | none => simp only [State.step, hv] at h; cases h
    | some x =>
      simp only [State.step, hv] at h ⊢
      split at h
      · rename_i hl
        simp only [hl, if_true]
        by_cases hc : c ∈ st.overNames
        · simp [hc]
        · simp [hc]
      · cases h
  · intro h
    rw [mem]
    simp only [State.step] at h ⊢
    by_cases h1 : c ∈ st.obj.names
    · rw [if_pos h1] at h; cases h
    · rw [if_neg h1] at h ⊢
      by_cases h2 : (st.over c).isSome
      · rw [if_pos h2]
        simp [h1]
      · rw [if_neg h2] at h; cases h
  · intro k hk
    constructor
    · intro v
      rw [mem, mem]
      cases hv : v.content st with
      | none => simp only [State.step, hv]
      | some x =>
        simp only [State.step, hv]
        split
        · by_cases hc : c ∈ st.overNames
          · simp [hc]
          · simp [hc, hk]
        · rfl
    · rw [mem, mem]
      simp only [State.step]
      by_cases h1 : c ∈ st.obj.names
      · rw [if_pos h1]
      · rw [if_neg h1]
        by_cases h2 : (st.over c).isSome
        · rw [if_pos h2]
          simp [hk]
        · rw [if_neg h2]

end NBK.ArrObj
