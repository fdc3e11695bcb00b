import Verif.CatObj.RunProps

/-! # `CatalogSource` objects: columns always have the size of the catalog -/
set_option linter.unusedSimpArgs false
namespace NBK.CatObj
open NBK.Slicing (Index)

variable {ρ δ V : Type}

/-- The states of programs: bases are older, dictionaries exist, columns have the size of their object. -/
structure Wf (w : World ρ δ V) : Prop where
  chain : Chain w.objs
  dict : ∀ (k : Nat) (o : Obj ρ δ) (r : Nat), w.objs[k]? = some o → o.attrs = some r → r < w.dicts.length
  over : ∀ (k : Nat) (o : Obj ρ δ) (c : String) (x : Col ρ), w.objs[k]? = some o → get c o.over = some x → x.Ok w.bufs ∧ x.len w.bufs = o.size
  hard : ∀ (k : Nat) (o : Obj ρ δ) (c : String) (f : δ → Col ρ), w.objs[k]? = some o → o.base = none → get c o.cls.hard = some f → get c o.over = none →
    (f o.data).Ok w.bufs ∧ (f o.data).len w.bufs = o.size
  names : ∀ (k : Nat) (o p : Obj ρ δ) (c : String), w.objs[k]? = some o → w.own k = some p → (get c o.cls.hard).isSome → (get c p.cls.hard).isSome

/-- The conditions on an operation: the hard-coded columns of a new object have its size, and the type of a view has no hard-coded columns of its own. -/
def Tame (w : World ρ δ V) : Op ρ δ V → Prop
  | .new cls data size => ∀ c f, get c cls.hard = some f → (f data).Ok w.bufs ∧ (f data).len w.bufs = size
  | .view i (some cls) => ∀ o, w.own i = some o → ∀ c, (get c cls.hard).isSome → (get c o.cls.hard).isSome
  | _ => True

/-- All operations of a program, each in the state in which it happens. -/
def TameRun (plain : Cls ρ δ) : World ρ δ V → List (Op ρ δ V) → Prop
  | _, [] => True
  | w, op :: ops => Tame w op ∧ TameRun plain (step plain w op) ops

theorem own_base {w : World ρ δ V} (hw : Wf w) (i : Nat) (o : Obj ρ δ) (h : w.own i = some o) : o.base = none := by
  have := owner_base w.objs hw.chain i
  unfold World.own at h
  rw [h] at this
  exact this

/-- C128: a column has exactly the rows of the catalog. -/
theorem read_sized {w : World ρ δ V} (hw : Wf w) (i : Nat) (c : String) (x : Col ρ) (d : Bool) (h : w.read i c = .ok (x, d)) :
    x.Ok w.bufs ∧ x.len w.bufs = w.size i := by
  unfold World.read at h
  cases ho : w.own i with
  | none => rw [ho] at h; cases h
  | some o =>
    rw [ho] at h
    dsimp only at h
    have hs : w.size i = o.size := by unfold World.size; rw [ho]; rfl
    rw [hs]
    unfold Obj.read at h
    split at h
    · rename_i y hy
      cases h
      exact hw.over _ o c x ho hy
    · rename_i hy
      split at h
      · rename_i f hf
        cases h
        exact hw.hard _ o c f ho (own_base hw i o ho) hf hy
      · split at h
        · cases h
          exact ⟨trivial, rfl⟩
        · cases h

/-- What must hold of an object that is added. -/
structure Good (w : World ρ δ V) (o : Obj ρ δ) : Prop where
  base : ∀ b, o.base = some b → b < w.objs.length ∧ ∀ p, w.own b = some p → ∀ c, (get c o.cls.hard).isSome → (get c p.cls.hard).isSome
  over : ∀ (c : String) (x : Col ρ), get c o.over = some x → x.Ok w.bufs ∧ x.len w.bufs = o.size
  hard : o.base = none → ∀ (c : String) (f : δ → Col ρ), get c o.cls.hard = some f → get c o.over = none → (f o.data).Ok w.bufs ∧ (f o.data).len w.bufs = o.size

theorem wf_add {w : World ρ δ V} (hw : Wf w) (o : Obj ρ δ) (hg : Good w o) (hd : ∀ r, o.attrs = some r → r < w.dicts.length) : Wf (w.add o).1 := by
  have hlast : ∀ (k : Nat) (p : Obj ρ δ), (w.objs ++ [o])[k]? = some p → (k < w.objs.length ∧ w.objs[k]? = some p) ∨ (k = w.objs.length ∧ p = o) := by
    intro k p hk
    by_cases hlt : k < w.objs.length
    · rw [List.getElem?_append_left hlt] at hk
      exact Or.inl ⟨hlt, hk⟩
    · have hle : k < (w.objs ++ [o]).length := (List.getElem?_eq_some_iff.mp hk).1
      rw [List.length_append, List.length_singleton] at hle
      have he : k = w.objs.length := by omega
      subst he
      rw [List.getElem?_append_right (Nat.le_refl _), Nat.sub_self] at hk
      cases hk
      exact Or.inr ⟨rfl, rfl⟩
  have hown : ∀ k, k < w.objs.length → (w.add o).1.own k = w.own k := by
    intro k hk
    have e : owner (w.add o).1.objs k = owner w.objs k := chain_same (fun j p hj => ⟨p, add_old w o j p hj, rfl⟩) k hk
    unfold World.own
    rw [e]
    show (w.objs ++ [o])[_]? = _
    rw [List.getElem?_append_left (Nat.lt_of_le_of_lt (owner_le _ _) hk)]
  constructor
  · intro k p hk b hb
    rcases hlast k p hk with ⟨_, h⟩ | ⟨rfl, rfl⟩
    · exact hw.chain k p h b hb
    · exact (hg.base b hb).1
  · intro k p r hk hr
    rcases hlast k p hk with ⟨_, h⟩ | ⟨rfl, rfl⟩
    · exact hw.dict k p r h hr
    · exact hd r hr
  · intro k p c x hk hx
    rcases hlast k p hk with ⟨_, h⟩ | ⟨rfl, rfl⟩
    · exact hw.over k p c x h hx
    · exact hg.over c x hx
  · intro k p c f hk hb hf hn
    rcases hlast k p hk with ⟨_, h⟩ | ⟨rfl, rfl⟩
    · exact hw.hard k p c f h hb hf hn
    · exact hg.hard hb c f hf hn
  · intro k p q c hk hq hc
    rcases hlast k p hk with ⟨hlt, h⟩ | ⟨rfl, rfl⟩
    · rw [hown k hlt] at hq
      exact hw.names k p q c h hq hc
    · cases hb : p.base with
      | none =>
        have e : owner (w.add p).1.objs w.objs.length = w.objs.length := owner_none _ _ (by rw [hk]; exact hb)
        unfold World.own at hq
        rw [e, hk] at hq
        cases hq
        exact hc
      | some b =>
        obtain ⟨hlt, hn⟩ := hg.base b hb
        have e : owner (w.add p).1.objs w.objs.length = owner (w.add p).1.objs b := owner_some _ _ b (by rw [hk]; exact hb) hlt
        have hq' : (w.add p).1.own b = some q := by unfold World.own at hq ⊢; rw [← e]; exact hq
        rw [hown b hlt] at hq'
        exact hn q hq' c hc

theorem wf_dicts {w : World ρ δ V} (hw : Wf w) (ds : List (List (String × V))) (h : w.dicts.length ≤ ds.length) : Wf { w with dicts := ds } :=
  ⟨hw.chain, fun k o r hk hr => Nat.lt_of_lt_of_le (hw.dict k o r hk hr) h, hw.over, hw.hard, hw.names⟩

/-- Replacing objects by others of the same class, base and size. -/
theorem wf_next {w w' : World ρ δ V} (hw : Wf w) (hl : w'.objs.length = w.objs.length) (hg : Grow w.bufs w'.bufs)
    (h : ∀ (k : Nat) (o : Obj ρ δ), w.objs[k]? = some o → ∃ o', w'.objs[k]? = some o' ∧ Same o o' ∧ (∀ r, o'.attrs = some r → r < w'.dicts.length) ∧
      (∀ c x, get c o'.over = some x → get c o.over = some x ∨ (x.Ok w.bufs ∧ x.len w.bufs = o.size)) ∧
      (∀ c, (get c o.cls.hard).isSome → get c o'.over = none → get c o.over = none)) : Wf w' := by
  have hback : ∀ (k : Nat) (o' : Obj ρ δ), w'.objs[k]? = some o' → ∃ o, w.objs[k]? = some o ∧ Same o o' ∧ (∀ r, o'.attrs = some r → r < w'.dicts.length) ∧
      (∀ c x, get c o'.over = some x → get c o.over = some x ∨ (x.Ok w.bufs ∧ x.len w.bufs = o.size)) ∧ (∀ c, (get c o.cls.hard).isSome → get c o'.over = none → get c o.over = none) := by
    intro k o' hk
    have hlt : k < w.objs.length := by rw [← hl]; exact (List.getElem?_eq_some_iff.mp hk).1
    obtain ⟨o2, h2, h3⟩ := h k _ (List.getElem?_eq_getElem hlt)
    rw [hk] at h2
    cases h2
    exact ⟨_, List.getElem?_eq_getElem hlt, h3⟩
  have hown : ∀ k, k < w.objs.length → owner w'.objs k = owner w.objs k := by
    intro k hk
    apply chain_same _ k hk
    intro j o ho
    obtain ⟨o', ho', hs, _⟩ := h j o ho
    exact ⟨o', ho', hs.2.2.2.2⟩
  constructor
  · intro k o' hk b hb
    obtain ⟨o, ho, hs, _⟩ := hback k o' hk
    exact hw.chain k o ho b (by rw [← hs.2.2.2.2]; exact hb)
  · intro k o' r hk hr
    obtain ⟨o, ho, _, hd, _⟩ := hback k o' hk
    exact hd r hr
  · intro k o' c x hk hx
    obtain ⟨o, ho, hs, _, hov, _⟩ := hback k o' hk
    have hgood : x.Ok w.bufs ∧ x.len w.bufs = o.size := by
      rcases hov c x hx with h | h
      · exact hw.over k o c x ho h
      · exact h
    have := grow_len w.bufs w'.bufs hg x hgood.1
    exact ⟨this.1, by rw [this.2, hgood.2, hs.2.2.1]⟩
  · intro k o' c f hk hb hf hn
    obtain ⟨o, ho, hs, _, _, hnew⟩ := hback k o' hk
    rw [hs.1] at hf
    have hgood := hw.hard k o c f ho (by rw [← hs.2.2.2.2]; exact hb) hf (hnew c (by rw [hf]; rfl) hn)
    have := grow_len w.bufs w'.bufs hg _ hgood.1
    rw [hs.2.1, hs.2.2.1]
    exact ⟨this.1, by rw [this.2, hgood.2]⟩
  · intro k o' q c hk hq hc
    obtain ⟨o, ho, hs, _⟩ := hback k o' hk
    have hlt : k < w.objs.length := (List.getElem?_eq_some_iff.mp ho).1
    unfold World.own at hq
    rw [hown k hlt] at hq
    obtain ⟨q0, hq0, hs0, _⟩ := hback _ q hq
    rw [hs0.1]
    rw [hs.1] at hc
    exact hw.names k o q0 c ho hq0 hc

/-- `self.attrs` keeps the state sound. -/
theorem wf_touch {w : World ρ δ V} (hw : Wf w) (i : Nat) : Wf (w.touch i).1 := by
  apply wf_next hw (touch_bufs w i).2.1
  · rw [(touch_bufs w i).1]; exact grow_refl _
  · intro k o ho
    have key : ∃ o', (w.touch i).1.objs[k]? = some o' ∧ Same o o' ∧ (∀ r, o'.attrs = some r → r < (w.touch i).1.dicts.length) ∧ o'.over = o.over := by
      unfold World.touch
      cases hi : w.objs[i]? with
      | none => exact ⟨o, ho, ⟨rfl, rfl, rfl, rfl, rfl⟩, fun r hr => hw.dict k o r ho hr, rfl⟩
      | some p =>
        dsimp only
        cases ha : p.attrs with
        | some r => exact ⟨o, ho, ⟨rfl, rfl, rfl, rfl, rfl⟩, fun r hr => hw.dict k o r ho hr, rfl⟩
        | none =>
          dsimp only
          by_cases hk : k = i
          · subst hk
            rw [ho] at hi
            cases hi
            refine ⟨_, List.getElem?_set_self (List.getElem?_eq_some_iff.mp ho).1, ⟨rfl, rfl, rfl, rfl, rfl⟩, ?_, rfl⟩
            intro r hr
            cases hr
            simp
          · refine ⟨o, by rw [List.getElem?_set_ne (fun e => hk e.symm)]; exact ho, ⟨rfl, rfl, rfl, rfl, rfl⟩, fun r hr => ?_, rfl⟩
            have := hw.dict k o r ho hr
            simp only [List.length_append, List.length_singleton]
            omega
    obtain ⟨o', h1, h2, h3, h4⟩ := key
    exact ⟨o', h1, h2, h3, fun c x hx => Or.inl (by rw [← h4]; exact hx), fun c _ hn => by rw [← h4]; exact hn⟩

theorem touch_ref (w : World ρ δ V) (hw : Wf w) (i : Nat) (hi : i < w.objs.length) : (w.touch i).2 < (w.touch i).1.dicts.length := by
  unfold World.touch
  rw [List.getElem?_eq_getElem hi]
  dsimp only
  cases ha : (w.objs[i]).attrs with
  | some r => exact hw.dict i _ r (List.getElem?_eq_getElem hi) ha
  | none => simp

/-! ## The columns of the objects that are made -/

theorem columns_nodup (w : World ρ δ V) (i : Nat) : (w.columns i).Nodup := by
  unfold World.columns
  cases w.own i with
  | none => exact List.nodup_nil
  | some o => exact (columns_sorted o).imp fun h => h.ne

theorem read_iff (w : World ρ δ V) (i : Nat) (c : String) : (∃ x, w.read i c = .ok x) ↔ c ∈ w.columns i := by
  unfold World.read World.columns
  cases w.own i with
  | none => simp
  | some o => exact obj_read_iff o c

theorem gather_names (w : World ρ δ V) (i : Nat) (names : List String) (cols : List (String × Col ρ × Bool)) (h : gather w i names = .ok cols) (hn : names.Nodup) (c : String) :
    get c (cols.map fun q => (q.1, q.2.1)) = if c ∈ names then (w.read i c).toOption.map Prod.fst else none := by
  obtain ⟨h1, h2⟩ := gather_shape w i names cols h
  have e : (cols.map fun q => (q.1, q.2.1)).map Prod.fst = names := by rw [List.map_map, ← h1]; rfl
  by_cases hc : c ∈ names
  · rw [if_pos hc]
    rw [← h1] at hc
    obtain ⟨p, hp, rfl⟩ := List.mem_map.mp hc
    rw [h2 p hp]
    exact get_of_mem p.1 p.2.1 _ (by rw [e]; exact hn) (List.mem_map.mpr ⟨p, hp, rfl⟩)
  · rw [if_neg hc]
    cases hg : get c (cols.map fun q => (q.1, q.2.1)) with
    | none => rfl
    | some x =>
      have := (mem_names c (cols.map fun q => (q.1, q.2.1))).mpr (by rw [hg]; rfl)
      rw [e] at this
      exact absurd this hc

/-- The entries of the sliced columns. -/
theorem sub_names (w : World ρ δ V) (n i : Nat) (ix : Index) (cols : List (String × Col ρ × Bool)) (l : List (String × Col ρ)) (h : sub w n i ix cols = .ok l)
    (hn : (cols.map Prod.fst).Nodup) (c : String) :
    (∀ x, get c l = some x → ∃ y z, (c, y, false) ∈ cols ∧ pick w.bufs y ix = .ok z ∧ x = if small n (w.size i) then Col.copy z else z) ∧
      ((∃ y, (c, y, false) ∈ cols) → (get c l).isSome) ∧ (l.map Prod.fst).Nodup := by
  have hf := mapM_forall _ _ _ h
  have key : ∀ (a : List (String × Col ρ × Bool)) (b : List (String × Col ρ)), List.Forall₂ (fun (p : String × Col ρ × Bool) q =>
      (pick w.bufs p.2.1 ix).map (fun c => (p.1, if small n (w.size i) then Col.copy c else c)) = .ok q) a b →
      (∀ x, get c b = some x → ∃ p z, p ∈ a ∧ p.1 = c ∧ pick w.bufs p.2.1 ix = .ok z ∧ x = if small n (w.size i) then Col.copy z else z) ∧
      b.map Prod.fst = a.map Prod.fst := by
    intro a b hab
    induction hab with
    | nil => exact ⟨fun x hx => by simp [get] at hx, rfl⟩
    | @cons p q a b hp _ ih =>
      cases hz : pick w.bufs p.2.1 ix with
      | error e => rw [hz] at hp; cases hp
      | ok z =>
        rw [hz] at hp
        simp only [Except.map, Except.ok.injEq] at hp
        subst hp
        refine ⟨?_, by rw [List.map_cons, List.map_cons, ih.2]⟩
        intro x hx
        rw [get_cons] at hx
        dsimp only at hx
        split at hx
        · rename_i hc
          cases hx
          exact ⟨p, z, List.mem_cons_self, hc, hz, rfl⟩
        · obtain ⟨p', z', h1, h2⟩ := ih.1 x hx
          exact ⟨p', z', List.mem_cons_of_mem _ h1, h2⟩
  obtain ⟨k1, k2⟩ := key _ _ hf
  refine ⟨?_, ?_, ?_⟩
  · intro x hx
    obtain ⟨p, z, hp, hc, h1, h2⟩ := k1 x hx
    obtain ⟨hp1, hp2⟩ := List.mem_filter.mp hp
    refine ⟨p.2.1, z, ?_, h1, h2⟩
    have : p.2.2 = false := by simpa using hp2
    rw [← hc, ← this]
    exact hp1
  · rintro ⟨y, hy⟩
    rw [← mem_names, k2]
    exact List.mem_map.mpr ⟨(c, y, false), List.mem_filter.mpr ⟨hy, rfl⟩, rfl⟩
  · rw [k2]
    exact hn.sublist (List.filter_sublist.map _)

theorem fold_get {β : Type} (l : List (String × β)) (hn : (l.map Prod.fst).Nodup) (c : String) : get c (l.foldl (fun l p => put p.1 p.2 l) []) = get c l := by
  rw [get_fold c l [] hn]
  cases get c l <;> simp [get]

theorem hard_in_columns {w : World ρ δ V} (hw : Wf w) (i : Nat) (o p : Obj ρ δ) (ho : w.objs[i]? = some o) (hp : w.own i = some p) (c : String) (h : (get c o.cls.hard).isSome) :
    ∃ y, w.read i c = .ok (y, false) := by
  have hh := hw.names i o p c ho hp h
  unfold World.read
  rw [hp]
  dsimp only
  unfold Obj.read
  cases get c p.over with
  | some x => exact ⟨x, rfl⟩
  | none =>
    cases hf : get c p.cls.hard with
    | none => rw [hf] at hh; cases hh
    | some f => exact ⟨_, rfl⟩

theorem sliceCls_hard {w : World ρ δ V} (hw : Wf w) (i : Nat) (o p : Obj ρ δ) (ho : w.objs[i]? = some o) (hp : w.own i = some p) (c : String)
    (h : (get c (sliceCls w o).hard).isSome) : ∃ y, w.read i c = .ok (y, false) := by
  unfold sliceCls at h
  cases hb : o.base with
  | none => rw [hb] at h; exact hard_in_columns hw i o p ho hp c h
  | some b =>
    rw [hb] at h
    dsimp only at h
    have hlt := hw.chain i o ho b hb
    have hi := (List.getElem?_eq_some_iff.mp ho).1
    have hob := List.getElem?_eq_getElem (l := w.objs) (i := b) (by omega)
    rw [hob] at h
    have e : owner w.objs i = owner w.objs b := owner_some w.objs i b (by rw [ho]; exact hb) hlt
    have hp' : w.own b = some p := by unfold World.own at hp ⊢; rw [← e]; exact hp
    obtain ⟨y, hy⟩ := hard_in_columns hw b _ p hob hp' c h
    refine ⟨y, ?_⟩
    unfold World.read at hy ⊢
    rw [hp'] at hy
    rw [hp]
    exact hy

/-- Every operation of a program keeps the state sound. -/
theorem wf_exec (plain : Cls ρ δ) (hplain : plain.hard = []) (w w' : World ρ δ V) (hw : Wf w) (op : Op ρ δ V) (ht : Tame w op) (h : exec plain w op = .ok w') : Wf w' := by
  have hslice : ∀ (i : Nat) (ix : Index) (p : World ρ δ V × Nat), slice w i ix = .ok p → Wf p.1 := by
    intro i ix p hc
    obtain ⟨o, ho, ⟨_, rfl⟩ | ⟨_, n, cols, l, hn, hg, hs, _, hlen, rfl⟩⟩ := slice_shape w i ix p hc
    · exact hw
    · obtain ⟨p, hp⟩ := own_some w i (List.getElem?_eq_some_iff.mp ho).1
      obtain ⟨g1, g2⟩ := gather_shape w i _ cols hg
      have hnd : (cols.map Prod.fst).Nodup := by rw [g1]; exact columns_nodup w i
      apply wf_add hw
      · refine ⟨fun b hb => (by cases hb), ?_, ?_⟩
        · intro c x hx
          dsimp only at hx
          obtain ⟨s1, s2, s3⟩ := sub_names w n i ix cols l hs hnd c
          rw [fold_get l s3] at hx
          have hl := hlen _ (get_mem c x l hx)
          obtain ⟨y, z, hy, hz, rfl⟩ := s1 x hx
          have hr := g2 _ hy
          obtain ⟨k1, k2⟩ := read_sized hw i c y false hr
          obtain ⟨q1, q2, _⟩ := pick_spec w.bufs y k1 ix z hz
          refine ⟨?_, hl⟩
          split
          · exact q1
          · exact q1
        · intro _ c f hf hov
          exfalso
          dsimp only at hf hov
          obtain ⟨y, hy⟩ := sliceCls_hard hw i o p ho hp c (by rw [hf]; rfl)
          obtain ⟨s1, s2, s3⟩ := sub_names w n i ix cols l hs hnd c
          rw [fold_get l s3] at hov
          have hmem : c ∈ cols.map Prod.fst := by rw [g1]; exact (read_iff w i c).mp ⟨_, hy⟩
          obtain ⟨q, hq, rfl⟩ := List.mem_map.mp hmem
          have := g2 q hq
          rw [hy] at this
          have hq2 : (y, false) = q.2 := Except.ok.inj this
          have := s2 ⟨y, by rw [hq2]; exact hq⟩
          rw [hov] at this
          cases this
      · intro r hr
        exact hw.dict i o r ho hr
  cases op with
  | newBuf l =>
    have hb := (exec_effect plain w w' _ h).1
    cases h
    exact wf_next hw rfl hb fun k o ho => ⟨o, ho, ⟨rfl, rfl, rfl, rfl, rfl⟩, fun r hr => hw.dict k o r ho hr, fun c x hx => Or.inl hx, fun _ _ hn => hn⟩
  | poke b l =>
    have hb := (exec_effect plain w w' _ h).1
    simp only [exec] at h
    split at h
    · cases h
    · split at h
      · cases h
        exact wf_next hw rfl hb fun k o ho => ⟨o, ho, ⟨rfl, rfl, rfl, rfl, rfl⟩, fun r hr => hw.dict k o r ho hr, fun c x hx => Or.inl hx, fun _ _ hn => hn⟩
      · cases h
  | new cls data size =>
    cases h
    apply wf_add hw
    · refine ⟨fun b hb => (by cases hb), fun c x hx => (by simp [get] at hx), fun _ c f hf _ => ht c f hf⟩
    · intro r hr; cases hr
  | view i ty =>
    simp only [exec, view] at h
    cases ho : w.objs[i]? with
    | none => rw [ho] at h; cases h
    | some o =>
      rw [ho] at h
      cases h
      apply wf_add hw
      · refine ⟨fun b hb => ?_, fun c x hx => (by simp [get] at hx), fun hb => (by cases hb)⟩
        cases hb
        refine ⟨(List.getElem?_eq_some_iff.mp ho).1, fun p hp c hc => ?_⟩
        cases ty with
        | none => exact hw.names i o p c ho hp hc
        | some cls => exact ht p hp c hc
      · intro r hr
        exact hw.dict i o r ho hr
  | copy i =>
    simp only [exec] at h
    cases hc : copy w i with
    | error e => rw [hc] at h; cases h
    | ok p =>
      rw [hc] at h
      cases h
      obtain ⟨o, cols, r, ho, hg, hlen, _, rfl⟩ := copy_shape w i p hc
      obtain ⟨p, hp⟩ := own_some w i (List.getElem?_eq_some_iff.mp ho).1
      have hnd : ((cols.map fun q => (q.1, q.2.1)).map Prod.fst).Nodup := by
        have := (gather_shape w i _ cols hg).1
        rw [List.map_map]
        show (cols.map Prod.fst).Nodup
        rw [this]
        exact columns_nodup w i
      apply wf_add (wf_dicts hw _ (by simp))
      · refine ⟨fun b hb => (by cases hb), ?_, ?_⟩
        · intro c x hx
          dsimp only at hx
          rw [fold_get _ hnd, gather_names w i _ cols hg (columns_nodup w i)] at hx
          split at hx
          · cases hr : w.read i c with
            | error e => rw [hr] at hx; cases hx
            | ok y =>
              rw [hr] at hx
              cases hx
              exact read_sized hw i c y.1 y.2 hr
          · cases hx
        · intro _ c f hf hov
          exfalso
          dsimp only at hf hov
          obtain ⟨y, hy⟩ := hard_in_columns hw i o p ho hp c (by rw [hf]; rfl)
          rw [fold_get _ hnd, gather_names w i _ cols hg (columns_nodup w i), if_pos ((read_iff w i c).mp ⟨_, hy⟩), hy] at hov
          cases hov
      · intro r hr
        cases hr
        simp
  | slice i ix =>
    simp only [exec] at h
    cases hc : slice w i ix with
    | error e => rw [hc] at h; cases h
    | ok p =>
      rw [hc] at h
      cases h
      exact hslice i ix p hc
  | select i names =>
    simp only [exec] at h
    cases hc : select plain w i names with
    | error e => rw [hc] at h; cases h
    | ok p =>
      rw [hc] at h
      cases h
      by_cases hne : names = []
      · subst hne
        refine hslice i (.ints []) p ?_
        unfold select at hc
        cases ho : w.objs[i]? with
        | none => rw [ho] at hc; cases hc
        | some o => rw [ho] at hc; simpa using hc
      · obtain ⟨o, cols, ho, _, hg, _, hlen, hp⟩ := select_shape plain w i names p hc hne
        dsimp only at hp
        subst hp
        have hnd : ((cols.map fun q => (q.1, q.2.1)).map Prod.fst).Nodup := by
          have := (gather_shape w i _ cols hg).1
          rw [List.map_map]
          show (cols.map Prod.fst).Nodup
          rw [this]
          exact List.nodup_dedup _
        refine wf_dicts (wf_touch (wf_add (wf_dicts hw _ (by simp)) _ ?_ ?_) i) _ (by simp)
        · refine ⟨fun b hb => (by cases hb), ?_, ?_⟩
          · intro c x hx
            dsimp only at hx
            rw [fold_get _ hnd, gather_names w i _ cols hg (List.nodup_dedup _)] at hx
            split at hx
            · cases hr : w.read i c with
              | error e => rw [hr] at hx; cases hx
              | ok y =>
                rw [hr] at hx
                cases hx
                exact read_sized hw i c y.1 y.2 hr
            · cases hx
          · intro _ c f hf hov
            dsimp only at hf
            rw [hplain] at hf
            simp [get] at hf
        · intro r hr
          cases hr
          simp
  | set i c v =>
    have h' : setCol w i c v = .ok w' := h
    obtain ⟨x, hi, hx, hlen, rfl⟩ := setCol_shape w i c v w' h'
    obtain ⟨r1, r2, r3⟩ := setOver_rest w (owner w.objs i) (put c x)
    have hxok : x.Ok w.bufs := by
      cases v with
      | scalar y => cases hx; trivial
      | buf b =>
        simp only [Given.value] at hx
        split at hx
        · cases hx; assumption
        · cases hx
      | col j d =>
        simp only [Given.value] at hx
        cases hr : w.read j d with
        | error e => rw [hr] at hx; cases hx
        | ok y => rw [hr] at hx; cases hx; exact (read_sized hw j d y.1 y.2 hr).1
      | colRows j d ix =>
        simp only [Given.value] at hx
        cases hr : w.read j d with
        | error e => rw [hr] at hx; cases hx
        | ok y =>
          rw [hr] at hx
          exact (pick_spec w.bufs y.1 (read_sized hw j d y.1 y.2 hr).1 ix x hx).1
    apply wf_next hw r3 (by rw [r1]; exact grow_refl _)
    intro k o ho
    refine ⟨_, setOver_old w _ _ k o ho, ?_⟩
    rw [r2]
    by_cases hk : k = owner w.objs i
    · rw [if_pos hk]
      refine ⟨⟨rfl, rfl, rfl, rfl, rfl⟩, fun r hr => hw.dict k o r ho hr, ?_, ?_⟩
      · intro d y hy
        dsimp only at hy
        rw [get_put] at hy
        split at hy
        · cases hy
          refine Or.inr ⟨hxok, ?_⟩
          rw [hlen]
          unfold World.size World.own
          rw [← hk, ho]
          rfl
        · exact Or.inl hy
      · intro d _ hn
        dsimp only at hn
        rw [get_put] at hn
        split at hn
        · cases hn
        · exact hn
    · rw [if_neg hk]
      exact ⟨⟨rfl, rfl, rfl, rfl, rfl⟩, fun r hr => hw.dict k o r ho hr, fun c x hx => Or.inl hx, fun _ _ hn => hn⟩
  | del i c =>
    have h' : delCol w i c = .ok w' := h
    obtain ⟨p, hp, hh, _, rfl⟩ := delCol_shape w i c w' h'
    obtain ⟨r1, r2, r3⟩ := setOver_rest w (owner w.objs i) (erase c)
    apply wf_next hw r3 (by rw [r1]; exact grow_refl _)
    intro k o ho
    refine ⟨_, setOver_old w _ _ k o ho, ?_⟩
    rw [r2]
    by_cases hk : k = owner w.objs i
    · rw [if_pos hk]
      refine ⟨⟨rfl, rfl, rfl, rfl, rfl⟩, fun r hr => hw.dict k o r ho hr, ?_, ?_⟩
      · intro d y hy
        dsimp only at hy
        rw [get_erase] at hy
        split at hy
        · cases hy
        · exact Or.inl hy
      · intro d hd hn
        dsimp only at hn
        rw [get_erase] at hn
        split at hn
        · rename_i hdc
          subst hdc
          unfold World.own at hp
          rw [← hk, ho] at hp
          cases hp
          rw [hh] at hd
          cases hd
        · exact hn
    · rw [if_neg hk]
      exact ⟨⟨rfl, rfl, rfl, rfl, rfl⟩, fun r hr => hw.dict k o r ho hr, fun c x hx => Or.inl hx, fun _ _ hn => hn⟩
  | touch i =>
    simp only [exec] at h
    split at h
    · cases h; exact wf_touch hw i
    · cases h
  | attr i k v =>
    simp only [exec] at h
    split at h
    · cases h; exact wf_dicts (wf_touch hw i) _ (by simp)
    · cases h

theorem wf_step (plain : Cls ρ δ) (hplain : plain.hard = []) (w : World ρ δ V) (hw : Wf w) (op : Op ρ δ V) (ht : Tame w op) : Wf (step plain w op) := by
  unfold step
  cases h : exec plain w op with
  | ok w' => exact wf_exec plain hplain w w' hw op ht h
  | error e => exact hw

theorem wf_run (plain : Cls ρ δ) (hplain : plain.hard = []) : ∀ (ops : List (Op ρ δ V)) (w : World ρ δ V), Wf w → TameRun plain w ops → Wf (run plain w ops)
  | [], _, hw, _ => hw
  | op :: ops, w, hw, ht => wf_run plain hplain ops (step plain w op) (wf_step plain hplain w hw op ht.1) ht.2

theorem wf_empty : Wf (⟨[], [], []⟩ : World ρ δ V) :=
  ⟨fun _ _ h => by simp at h, fun _ _ _ h => by simp at h, fun _ _ _ _ h => by simp at h, fun _ _ _ _ h => by simp at h, fun _ _ _ _ h => by simp at h⟩

/-- C128: after any program, the columns that a catalog lists are in order without repetition, they are the ones that can be read, and each has exactly as many rows as the catalog. -/
theorem columns_sized (plain : Cls ρ δ) (hplain : plain.hard = []) (ops : List (Op ρ δ V)) (ht : TameRun plain ⟨[], [], []⟩ ops) (i : Nat) :
    let w := run plain ⟨[], [], []⟩ ops
    (w.columns i).Pairwise (· < ·) ∧ (∀ c ∈ w.columns i, ∃ l, w.rows i c = .ok l ∧ l.length = w.size i) ∧
      (i < w.objs.length → ∀ c, c ∉ w.columns i → w.rows i c = .error .keyError) := by
  intro w
  have hw : Wf w := wf_run plain hplain ops _ wf_empty ht
  refine ⟨?_, ?_, ?_⟩
  · unfold World.columns
    cases w.own i with
    | none => exact List.Pairwise.nil
    | some o => exact columns_sorted o
  · intro c hc
    obtain ⟨x, hx⟩ := (read_iff w i c).mpr hc
    obtain ⟨h1, h2⟩ := read_sized hw i c x.1 x.2 hx
    refine ⟨x.1.eval w.bufs, by unfold World.rows; rw [hx]; rfl, by rw [eval_length _ _ h1, h2]⟩
  · intro hi c hc
    obtain ⟨o, ho⟩ := own_some w i hi
    unfold World.rows World.read
    rw [ho]
    dsimp only
    unfold World.columns at hc
    rw [ho] at hc
    rw [obj_read_error o c hc]
    rfl

end NBK.CatObj
