import Verif.CatObj.Props

/-! # `CatalogSource` objects: what one operation of a program does to the objects that exist -/
set_option linter.unusedSimpArgs false
namespace NBK.CatObj
open NBK.Slicing (Index)

variable {ρ δ V : Type}

/-! ## The outcome of the object-making operations -/

theorem setAll_shape (bufs : List (List ρ)) (n : Nat) (cols over : List (String × Col ρ)) (h : setAll bufs n cols = .ok over) :
    (∀ p ∈ cols, p.2.len bufs = n) ∧ over = cols.foldl (fun l p => put p.1 p.2 l) [] := by
  unfold setAll at h
  split at h
  · cases h
  · rename_i hn
    cases h
    refine ⟨fun p hp => ?_, rfl⟩
    by_contra hc
    exact hn (List.any_eq_true.mpr ⟨p, hp, by simpa using hc⟩)

theorem setAll_ok (bufs : List (List ρ)) (n : Nat) (cols : List (String × Col ρ)) (h : ∀ p ∈ cols, p.2.len bufs = n) :
    setAll bufs n cols = .ok (cols.foldl (fun l p => put p.1 p.2 l) []) := by
  unfold setAll
  rw [if_neg]
  rw [List.any_eq_true]
  rintro ⟨p, hp, hc⟩
  simp [h p hp] at hc

theorem fromColumns_shape (w : World ρ δ V) (cls : Cls ρ δ) (data : δ) (n : Nat) (cols : List (String × Col ρ)) (attrs : Option Nat) (p : World ρ δ V × Nat)
    (h : fromColumns w cls data n cols attrs = .ok p) :
    (∀ q ∈ cols, q.1 ∉ reserved) ∧ (∀ q ∈ cols, q.2.len w.bufs = n) ∧
      p = w.add ⟨cls, data, n, n, cols.foldl (fun l p => put p.1 p.2 l) [], none, attrs⟩ := by
  unfold fromColumns at h
  split at h
  · cases h
  · rename_i hr
    cases hs : setAll w.bufs n cols with
    | error e => rw [hs] at h; cases h
    | ok over =>
      rw [hs] at h
      obtain ⟨h1, h2⟩ := setAll_shape _ _ _ _ hs
      cases h
      refine ⟨fun q hq hc => hr (List.any_eq_true.mpr ⟨q, hq, by simpa using hc⟩), h1, by rw [h2]⟩

theorem fromColumns_ok (w : World ρ δ V) (cls : Cls ρ δ) (data : δ) (n : Nat) (cols : List (String × Col ρ)) (attrs : Option Nat)
    (h1 : ∀ q ∈ cols, q.1 ∉ reserved) (h2 : ∀ q ∈ cols, q.2.len w.bufs = n) :
    fromColumns w cls data n cols attrs = .ok (w.add ⟨cls, data, n, n, cols.foldl (fun l p => put p.1 p.2 l) [], none, attrs⟩) := by
  unfold fromColumns
  rw [if_neg, setAll_ok _ _ _ h2]
  · rfl
  · rw [List.any_eq_true]
    rintro ⟨q, hq, hc⟩
    exact h1 q hq (by simpa using hc)

theorem mapM_forall {α β ε : Type} (f : α → Except ε β) : ∀ (l : List α) (r : List β), l.mapM f = .ok r → List.Forall₂ (fun x y => f x = .ok y) l r
  | [], r, h => by cases h; exact List.Forall₂.nil
  | x :: l, r, h => by
    rw [List.mapM_cons] at h
    cases hx : f x with
    | error e => rw [hx] at h; cases h
    | ok y =>
      rw [hx] at h
      cases hl : l.mapM f with
      | error e => rw [hl] at h; cases h
      | ok ys =>
        rw [hl] at h
        cases h
        exact List.Forall₂.cons hx (mapM_forall f l ys hl)

theorem gather_shape (w : World ρ δ V) (i : Nat) (names : List String) (cols : List (String × Col ρ × Bool)) (h : gather w i names = .ok cols) :
    cols.map Prod.fst = names ∧ ∀ p ∈ cols, w.read i p.1 = .ok p.2 := by
  have hf := mapM_forall _ _ _ h
  clear h
  induction hf with
  | nil => exact ⟨rfl, fun _ hp => absurd hp List.not_mem_nil⟩
  | @cons c p names cols hp _ ih =>
    cases hr : w.read i c with
    | error e => rw [hr] at hp; cases hp
    | ok x =>
      rw [hr] at hp
      cases hp
      refine ⟨by rw [List.map_cons, ih.1], ?_⟩
      intro q hq
      rcases List.mem_cons.mp hq with rfl | hq
      · exact hr
      · exact ih.2 q hq

theorem gather_ok (w : World ρ δ V) (i : Nat) : ∀ (names : List String), (∀ c ∈ names, ∃ x, w.read i c = .ok x) → ∃ cols, gather w i names = .ok cols
  | [], _ => ⟨[], rfl⟩
  | c :: names, h => by
    obtain ⟨x, hx⟩ := h c List.mem_cons_self
    obtain ⟨l, hl⟩ := gather_ok w i names fun d hd => h d (List.mem_cons_of_mem _ hd)
    refine ⟨(c, x) :: l, ?_⟩
    unfold gather at hl ⊢
    rw [List.mapM_cons, hx, hl]
    rfl

theorem copy_shape (w : World ρ δ V) (i : Nat) (p : World ρ δ V × Nat) (h : copy w i = .ok p) :
    ∃ o cols r, w.objs[i]? = some o ∧ gather w i (w.columns i) = .ok cols ∧ (∀ q ∈ cols, q.2.1.len w.bufs = w.size i) ∧ o.attrs = some r ∧
      p = ({ w with dicts := w.dicts ++ [(w.dicts[r]?).getD []] } : World ρ δ V).add
        ⟨o.cls, o.data, w.size i, w.csize i, (cols.map fun q => (q.1, q.2.1)).foldl (fun l p => put p.1 p.2 l) [], none, some w.dicts.length⟩ := by
  unfold copy at h
  cases ho : w.objs[i]? with
  | none => rw [ho] at h; cases h
  | some o =>
    rw [ho] at h
    dsimp only at h
    cases hg : gather w i (w.columns i) with
    | error e => rw [hg] at h; cases h
    | ok cols =>
      rw [hg] at h
      dsimp only [Except.bind] at h
      cases hs : setAll w.bufs (w.size i) (cols.map fun q => (q.1, q.2.1)) with
      | error e => rw [hs] at h; cases h
      | ok over =>
        rw [hs] at h
        dsimp only at h
        obtain ⟨h1, h2⟩ := setAll_shape _ _ _ _ hs
        cases ha : o.attrs with
        | none => rw [ha] at h; cases h
        | some r =>
          rw [ha] at h
          cases h
          refine ⟨o, cols, r, rfl, rfl, fun q hq => h1 (q.1, q.2.1) (List.mem_map.mpr ⟨q, hq, rfl⟩), ha, by rw [h2]⟩

/-- The sliced columns of the object. -/
def sub (w : World ρ δ V) (n : Nat) (i : Nat) (ix : Index) (cols : List (String × Col ρ × Bool)) : Except Err (List (String × Col ρ)) :=
  (cols.filter fun p => !p.2.2).mapM fun p => (pick w.bufs p.2.1 ix).map fun c => (p.1, if small n (w.size i) then Col.copy c else c)

theorem slice_shape (w : World ρ δ V) (i : Nat) (ix : Index) (p : World ρ δ V × Nat) (h : slice w i ix = .ok p) :
    ∃ o, w.objs[i]? = some o ∧ ((ix = .ellipsis ∧ p = (w, i)) ∨ (ix ≠ .ellipsis ∧ ∃ n cols l, NBK.Slicing.newSize (w.size i) ix = .ok n ∧
      gather w i (w.columns i) = .ok cols ∧ sub w n i ix cols = .ok l ∧ (∀ q ∈ l, q.1 ∉ reserved) ∧ (∀ q ∈ l, q.2.len w.bufs = n) ∧
      p = w.add ⟨sliceCls w o, o.data, n, n, l.foldl (fun l p => put p.1 p.2 l) [], none, o.attrs⟩)) := by
  unfold slice at h
  cases ho : w.objs[i]? with
  | none => rw [ho] at h; cases h
  | some o =>
    rw [ho] at h
    dsimp only at h
    refine ⟨o, rfl, ?_⟩
    by_cases hx : ix = .ellipsis
    · rw [if_pos hx] at h
      cases h
      exact Or.inl ⟨hx, rfl⟩
    · rw [if_neg hx] at h
      refine Or.inr ⟨hx, ?_⟩
      cases hn : NBK.Slicing.newSize (w.size i) ix with
      | error e => rw [hn] at h; cases h
      | ok n =>
        rw [hn] at h
        dsimp only at h
        cases hg : gather w i (w.columns i) with
        | error e => rw [hg] at h; cases h
        | ok cols =>
          rw [hg] at h
          dsimp only [Except.bind] at h
          cases hs : sub w n i ix cols with
          | error e => unfold sub at hs; rw [hs] at h; cases h
          | ok l =>
            have hs' := hs
            unfold sub at hs
            rw [hs] at h
            dsimp only at h
            obtain ⟨h1, h2, h3⟩ := fromColumns_shape _ _ _ _ _ _ _ h
            exact ⟨n, cols, l, rfl, rfl, hs', h1, h2, h3⟩

theorem select_shape (plain : Cls ρ δ) (w : World ρ δ V) (i : Nat) (names : List String) (p : World ρ δ V × Nat) (h : select plain w i names = .ok p) (hne : names ≠ []) :
    ∃ o cols, w.objs[i]? = some o ∧ (∀ c ∈ names, c ∈ w.columns i) ∧ gather w i names.dedup = .ok cols ∧ (∀ q ∈ cols, q.1 ∉ reserved) ∧
      (∀ q ∈ cols, q.2.1.len w.bufs = w.size i) ∧
      let w1 := (({ w with dicts := w.dicts ++ [[]] } : World ρ δ V).add
        ⟨plain, o.data, w.size i, w.size i, (cols.map fun q => (q.1, q.2.1)).foldl (fun l p => put p.1 p.2 l) [], none, some w.dicts.length⟩).1
      p = ({ (w1.touch i).1 with dicts := (w1.touch i).1.dicts.set w.dicts.length (((w1.touch i).1.dicts[(w1.touch i).2]?).getD []) }, w.objs.length) := by
  unfold select at h
  cases ho : w.objs[i]? with
  | none => rw [ho] at h; cases h
  | some o =>
    rw [ho] at h
    dsimp only at h
    rw [if_neg hne] at h
    split at h
    · cases h
    · rename_i hm
      cases hg : gather w i names.dedup with
      | error e => rw [hg] at h; cases h
      | ok cols =>
        rw [hg] at h
        dsimp only [Except.bind] at h
        cases hf : fromColumns { w with dicts := w.dicts ++ [[]] } plain o.data (w.size i) (cols.map fun p => (p.1, p.2.1)) (some w.dicts.length) with
        | error e => rw [hf] at h; cases h
        | ok q =>
          rw [hf] at h
          obtain ⟨h1, h2, h3⟩ := fromColumns_shape _ _ _ _ _ _ _ hf
          cases h
          refine ⟨o, cols, rfl, ?_, rfl, fun q hq => h1 (q.1, q.2.1) (List.mem_map.mpr ⟨q, hq, rfl⟩), fun q hq => h2 (q.1, q.2.1) (List.mem_map.mpr ⟨q, hq, rfl⟩), ?_⟩
          · intro c hc
            by_contra hcon
            exact hm (List.any_eq_true.mpr ⟨c, hc, by simpa using hcon⟩)
          · rw [h3]; rfl

/-! ## The effect on the objects that exist -/

/-- What never changes in an object. -/
def Same (o o' : Obj ρ δ) : Prop := o'.cls = o.cls ∧ o'.data = o.data ∧ o'.size = o.size ∧ o'.csize = o.csize ∧ o'.base = o.base

/-- The assignment (`some column`) or deletion (`none`) of column `c` of the memory of object `k` that an operation makes. -/
def wrote (w : World ρ δ V) (op : Op ρ δ V) (k : Nat) (c : String) : Option (Option (Col ρ)) :=
  match op with
  | .set i c' v =>
    if owner w.objs i = k ∧ c' = c then
      match setCol w i c' v with
      | .ok _ => ((v.value w (w.size i)).toOption).map some
      | .error _ => none
    else none
  | .del i c' =>
    if owner w.objs i = k ∧ c' = c then
      match delCol w i c' with
      | .ok _ => some none
      | .error _ => none
    else none
  | _ => none

/-- The object `o` has become `o'`: the columns `f` were written. -/
def Next (f : String → Option (Option (Col ρ))) (o o' : Obj ρ δ) : Prop :=
  Same o o' ∧ (∀ c, get c o'.over = (f c).getD (get c o.over)) ∧ (o.attrs.isSome → o'.attrs = o.attrs)

theorem next_refl (o : Obj ρ δ) : Next (fun _ => none) o o := ⟨⟨rfl, rfl, rfl, rfl, rfl⟩, fun _ => rfl, fun _ => rfl⟩

theorem touch_old (w : World ρ δ V) (i k : Nat) (o : Obj ρ δ) (h : w.objs[k]? = some o) :
    ∃ o', (w.touch i).1.objs[k]? = some o' ∧ Next (fun _ => none) o o' := by
  unfold World.touch
  cases hi : w.objs[i]? with
  | none => exact ⟨o, h, next_refl o⟩
  | some p =>
    dsimp only
    cases ha : p.attrs with
    | some r => exact ⟨o, h, next_refl o⟩
    | none =>
      dsimp only
      by_cases hk : k = i
      · subst hk
        rw [h] at hi
        cases hi
        have hlt := (List.getElem?_eq_some_iff.mp h).1
        refine ⟨_, List.getElem?_set_self hlt, ⟨rfl, rfl, rfl, rfl, rfl⟩, fun _ => rfl, ?_⟩
        intro hs
        rw [ha] at hs
        cases hs
      · exact ⟨o, by rw [List.getElem?_set_ne (fun e => hk e.symm)]; exact h, next_refl o⟩

theorem touch_bufs (w : World ρ δ V) (i : Nat) : (w.touch i).1.bufs = w.bufs ∧ (w.touch i).1.objs.length = w.objs.length ∧ w.dicts.length ≤ (w.touch i).1.dicts.length := by
  unfold World.touch
  cases w.objs[i]? with
  | none => exact ⟨rfl, rfl, Nat.le_refl _⟩
  | some p =>
    dsimp only
    cases p.attrs with
    | some r => exact ⟨rfl, rfl, Nat.le_refl _⟩
    | none => exact ⟨rfl, by simp, by simp⟩

theorem add_old (w : World ρ δ V) (n : Obj ρ δ) (k : Nat) (o : Obj ρ δ) (h : w.objs[k]? = some o) : (w.add n).1.objs[k]? = some o := by
  unfold World.add
  rw [List.getElem?_append_left (List.getElem?_eq_some_iff.mp h).1]
  exact h

theorem setCol_shape (w : World ρ δ V) (i : Nat) (c : String) (v : Given ρ) (w' : World ρ δ V) (h : setCol w i c v = .ok w') :
    ∃ x, i < w.objs.length ∧ v.value w (w.size i) = .ok x ∧ x.len w.bufs = w.size i ∧ w' = w.setOver (owner w.objs i) (put c x) := by
  unfold setCol at h
  cases ho : w.objs[i]? with
  | none => rw [ho] at h; cases h
  | some o =>
    rw [ho] at h
    dsimp only at h
    cases hv : v.value w (w.size i) with
    | error e => rw [hv] at h; cases h
    | ok x =>
      rw [hv] at h
      dsimp only [Except.bind] at h
      split at h
      · cases h
      · rename_i hl
        cases h
        exact ⟨x, (List.getElem?_eq_some_iff.mp ho).1, rfl, not_not.mp hl, rfl⟩

theorem delCol_shape (w : World ρ δ V) (i : Nat) (c : String) (w' : World ρ δ V) (h : delCol w i c = .ok w') :
    ∃ o, w.own i = some o ∧ get c o.cls.hard = none ∧ (get c o.over).isSome ∧ w' = w.setOver (owner w.objs i) (erase c) := by
  unfold delCol at h
  cases ho : w.own i with
  | none => rw [ho] at h; cases h
  | some o =>
    rw [ho] at h
    dsimp only at h
    split at h
    · cases h
    · split at h
      · cases h
      · rename_i hh
        split at h
        · rename_i h2
          cases h
          exact ⟨o, rfl, by simpa using hh, h2, rfl⟩
        · cases h

theorem setOver_old (w : World ρ δ V) (i : Nat) (f : List (String × Col ρ) → List (String × Col ρ)) (k : Nat) (o : Obj ρ δ) (h : w.objs[k]? = some o) :
    (w.setOver i f).objs[k]? = some (if k = i then { o with over := f o.over } else o) := by
  unfold World.setOver
  cases hi : w.objs[i]? with
  | none =>
    have : k ≠ i := by rintro rfl; rw [h] at hi; cases hi
    rw [if_neg this]; exact h
  | some p =>
    dsimp only
    by_cases hk : k = i
    · subst hk
      rw [h] at hi
      cases hi
      rw [if_pos rfl, List.getElem?_set_self (List.getElem?_eq_some_iff.mp h).1]
    · rw [if_neg hk, List.getElem?_set_ne (fun e => hk e.symm)]; exact h

theorem setOver_rest (w : World ρ δ V) (i : Nat) (f : List (String × Col ρ) → List (String × Col ρ)) :
    (w.setOver i f).bufs = w.bufs ∧ (w.setOver i f).dicts = w.dicts ∧ (w.setOver i f).objs.length = w.objs.length := by
  unfold World.setOver
  cases w.objs[i]? with
  | none => exact ⟨rfl, rfl, rfl⟩
  | some p => exact ⟨rfl, rfl, by simp⟩

/-- Every operation that succeeds: objects, arrays and dictionaries stay, and exactly the column that is assigned or deleted changes, in the memory of its owner. -/
theorem exec_effect (plain : Cls ρ δ) (w w' : World ρ δ V) (op : Op ρ δ V) (h : exec plain w op = .ok w') :
    Grow w.bufs w'.bufs ∧ w.dicts.length ≤ w'.dicts.length ∧
      ∀ (k : Nat) (o : Obj ρ δ), w.objs[k]? = some o → ∃ o', w'.objs[k]? = some o' ∧ Next (wrote w op k) o o' := by
  cases op with
  | newBuf l =>
    cases h
    refine ⟨fun b x hx => ⟨x, ?_, rfl⟩, Nat.le_refl _, fun k o ho => ⟨o, ho, next_refl o⟩⟩
    show (w.bufs ++ [l])[b]? = some x
    rw [List.getElem?_append_left (List.getElem?_eq_some_iff.mp hx).1]; exact hx
  | poke b l =>
    simp only [exec] at h
    cases hb : w.bufs[b]? with
    | none => rw [hb] at h; cases h
    | some x =>
      rw [hb] at h
      dsimp only at h
      split at h
      · rename_i hl
        cases h
        refine ⟨fun b' x' hx => ?_, Nat.le_refl _, fun k o ho => ⟨o, ho, next_refl o⟩⟩
        by_cases he : b' = b
        · subst he
          rw [hb] at hx
          cases hx
          exact ⟨l, List.getElem?_set_self (List.getElem?_eq_some_iff.mp hb).1, hl⟩
        · exact ⟨x', by dsimp only; rw [List.getElem?_set_ne (fun e => he e.symm)]; exact hx, rfl⟩
      · cases h
  | new cls data size =>
    cases h
    exact ⟨grow_refl _, Nat.le_refl _, fun k o ho => ⟨o, add_old w _ k o ho, next_refl o⟩⟩
  | view i ty =>
    simp only [exec, view] at h
    cases ho : w.objs[i]? with
    | none => rw [ho] at h; cases h
    | some o =>
      rw [ho] at h
      cases h
      exact ⟨grow_refl _, Nat.le_refl _, fun k o ho => ⟨o, add_old w _ k o ho, next_refl o⟩⟩
  | copy i =>
    simp only [exec] at h
    cases hc : copy w i with
    | error e => rw [hc] at h; cases h
    | ok p =>
      rw [hc] at h
      cases h
      obtain ⟨o, cols, r, _, _, _, _, rfl⟩ := copy_shape w i p hc
      exact ⟨grow_refl _, by simp [World.add], fun k o ho => ⟨o, add_old _ _ k o ho, next_refl o⟩⟩
  | slice i ix =>
    simp only [exec] at h
    cases hc : slice w i ix with
    | error e => rw [hc] at h; cases h
    | ok p =>
      rw [hc] at h
      cases h
      obtain ⟨o, _, ⟨_, rfl⟩ | ⟨_, n, cols, l, _, _, _, _, _, rfl⟩⟩ := slice_shape w i ix p hc
      · exact ⟨grow_refl _, Nat.le_refl _, fun k o ho => ⟨o, ho, next_refl o⟩⟩
      · exact ⟨grow_refl _, Nat.le_refl _, fun k o ho => ⟨o, add_old w _ k o ho, next_refl o⟩⟩
  | select i names =>
    simp only [exec] at h
    cases hc : select plain w i names with
    | error e => rw [hc] at h; cases h
    | ok p =>
      rw [hc] at h
      cases h
      by_cases hne : names = []
      · subst hne
        have hc' : slice w i (.ints []) = .ok p := by
          unfold select at hc
          cases ho : w.objs[i]? with
          | none => rw [ho] at hc; cases hc
          | some o => rw [ho] at hc; simpa using hc
        obtain ⟨o, _, ⟨_, rfl⟩ | ⟨_, n, cols, l, _, _, _, _, _, rfl⟩⟩ := slice_shape w i _ p hc'
        · exact ⟨grow_refl _, Nat.le_refl _, fun k o ho => ⟨o, ho, next_refl o⟩⟩
        · exact ⟨grow_refl _, Nat.le_refl _, fun k o ho => ⟨o, add_old w _ k o ho, next_refl o⟩⟩
      · obtain ⟨o, cols, _, _, _, _, _, hp⟩ := select_shape plain w i names p hc hne
        dsimp only at hp
        subst hp
        refine ⟨?_, ?_, ?_⟩
        · dsimp only; rw [(touch_bufs _ i).1]; exact grow_refl _
        · dsimp only
          rw [List.length_set]
          have := (touch_bufs (({ w with dicts := w.dicts ++ [[]] } : World ρ δ V).add
            ⟨plain, o.data, w.size i, w.size i, (cols.map fun q => (q.1, q.2.1)).foldl (fun l p => put p.1 p.2 l) [], none, some w.dicts.length⟩).1 i).2.2
          refine Nat.le_trans ?_ this
          simp [World.add]
        · intro k o' ho'
          exact touch_old _ i k o' (add_old _ _ k o' ho')
  | set i c v =>
    have h' : setCol w i c v = .ok w' := h
    obtain ⟨x, _, hx, _, rfl⟩ := setCol_shape w i c v w' h'
    obtain ⟨r1, r2, _⟩ := setOver_rest w (owner w.objs i) (put c x)
    refine ⟨by rw [r1]; exact grow_refl _, by rw [r2], fun k o ho => ⟨_, setOver_old w _ _ k o ho, ?_⟩⟩
    by_cases hk : k = owner w.objs i
    · rw [if_pos hk]
      refine ⟨⟨rfl, rfl, rfl, rfl, rfl⟩, fun d => ?_, fun _ => rfl⟩
      simp only [wrote, h', hx, get_put]
      by_cases hd : d = c
      · simp [hd, hk, Except.toOption]
      · rw [if_neg hd, if_neg (by rintro ⟨_, e⟩; exact hd e.symm)]
        rfl
    · rw [if_neg hk]
      refine ⟨⟨rfl, rfl, rfl, rfl, rfl⟩, fun d => ?_, fun _ => rfl⟩
      simp only [wrote]
      rw [if_neg (by rintro ⟨e, _⟩; exact hk e.symm)]
      rfl
  | del i c =>
    have h' : delCol w i c = .ok w' := h
    obtain ⟨p, _, _, _, rfl⟩ := delCol_shape w i c w' h'
    obtain ⟨r1, r2, _⟩ := setOver_rest w (owner w.objs i) (erase c)
    refine ⟨by rw [r1]; exact grow_refl _, by rw [r2], fun k o ho => ⟨_, setOver_old w _ _ k o ho, ?_⟩⟩
    by_cases hk : k = owner w.objs i
    · rw [if_pos hk]
      refine ⟨⟨rfl, rfl, rfl, rfl, rfl⟩, fun d => ?_, fun _ => rfl⟩
      simp only [wrote, h', get_erase]
      by_cases hd : d = c
      · simp [hd, hk]
      · rw [if_neg hd, if_neg (by rintro ⟨_, e⟩; exact hd e.symm)]
        rfl
    · rw [if_neg hk]
      refine ⟨⟨rfl, rfl, rfl, rfl, rfl⟩, fun d => ?_, fun _ => rfl⟩
      simp only [wrote]
      rw [if_neg (by rintro ⟨e, _⟩; exact hk e.symm)]
      rfl
  | touch i =>
    simp only [exec] at h
    split at h
    · cases h
      obtain ⟨r1, _, r3⟩ := touch_bufs w i
      exact ⟨by rw [r1]; exact grow_refl _, r3, fun k o ho => touch_old w i k o ho⟩
    · cases h
  | attr i k v =>
    simp only [exec] at h
    split at h
    · cases h
      obtain ⟨r1, _, r3⟩ := touch_bufs w i
      refine ⟨by dsimp only; rw [r1]; exact grow_refl _, by dsimp only; rw [List.length_set]; exact r3, fun k o ho => touch_old w i k o ho⟩
    · cases h

theorem wrote_refused (plain : Cls ρ δ) (w : World ρ δ V) (op : Op ρ δ V) (e : Err) (h : exec plain w op = .error e) (k : Nat) (c : String) : wrote w op k c = none := by
  cases op with
  | set i c' v =>
    have h' : setCol w i c' v = .error e := h
    simp only [wrote, h']
    split <;> rfl
  | del i c' =>
    have h' : delCol w i c' = .error e := h
    simp only [wrote, h']
    split <;> rfl
  | _ => rfl

/-- The same for one step of a program: a refused operation changes nothing. -/
theorem step_effect (plain : Cls ρ δ) (w : World ρ δ V) (op : Op ρ δ V) :
    Grow w.bufs (step plain w op).bufs ∧ w.dicts.length ≤ (step plain w op).dicts.length ∧
      ∀ (k : Nat) (o : Obj ρ δ), w.objs[k]? = some o → ∃ o', (step plain w op).objs[k]? = some o' ∧ Next (wrote w op k) o o' := by
  unfold step
  cases h : exec plain w op with
  | ok w' => exact exec_effect plain w w' op h
  | error e =>
    refine ⟨grow_refl _, Nat.le_refl _, fun k o ho => ⟨o, ho, ?_⟩⟩
    refine ⟨⟨rfl, rfl, rfl, rfl, rfl⟩, fun c => ?_, fun _ => rfl⟩
    rw [wrote_refused plain w op e h]
    rfl

end NBK.CatObj
