import Verif.CatObj.WfProps

/-! # `CatalogSource` objects: views, copies, slices and selections -/
set_option linter.unusedSimpArgs false
namespace NBK.CatObj
open NBK.Slicing (Index)

variable {ρ δ V : Type}

theorem add_last (w : World ρ δ V) (o : Obj ρ δ) : (w.add o).1.objs[w.objs.length]? = some o := by
  show (w.objs ++ [o])[w.objs.length]? = some o
  rw [List.getElem?_append_right (Nat.le_refl _), Nat.sub_self]
  rfl

theorem add_own (w : World ρ δ V) (o : Obj ρ δ) (k : Nat) (hk : k < w.objs.length) : owner (w.add o).1.objs k = owner w.objs k ∧ (w.add o).1.own k = w.own k := by
  have e : owner (w.add o).1.objs k = owner w.objs k := chain_same (fun j p hj => ⟨p, add_old w o j p hj, rfl⟩) k hk
  refine ⟨e, ?_⟩
  unfold World.own
  rw [e]
  show (w.objs ++ [o])[_]? = _
  rw [List.getElem?_append_left (Nat.lt_of_le_of_lt (owner_le _ _) hk)]

theorem add_own_last (w : World ρ δ V) (o : Obj ρ δ) (hb : o.base = none) : owner (w.add o).1.objs w.objs.length = w.objs.length ∧ (w.add o).1.own w.objs.length = some o := by
  have e : owner (w.add o).1.objs w.objs.length = w.objs.length := owner_none _ _ (by rw [add_last]; exact hb)
  refine ⟨e, ?_⟩
  unfold World.own
  rw [e]
  exact add_last w o

/-- C128: a view has the columns, the sizes and the memory of what it is made from (so it keeps them: `family`), and its dictionary of attributes, if there is one. -/
theorem view_spec (w : World ρ δ V) (i : Nat) (ty : Option (Cls ρ δ)) (hi : i < w.objs.length) :
    ∃ w', view w i ty = .ok (w', w.objs.length) ∧ owner w'.objs w.objs.length = owner w'.objs i ∧ w'.read w.objs.length = w.read i ∧ w'.columns w.objs.length = w.columns i ∧
      w'.size w.objs.length = w.size i ∧ w'.csize w.objs.length = w.csize i ∧ w'.hardcolumns w.objs.length = w.hardcolumns i ∧ w'.attrsOf w.objs.length = w.attrsOf i ∧
      ∀ o o', w.objs[i]? = some o → w'.objs[w.objs.length]? = some o' → o'.cls = ty.getD o.cls ∧ o'.attrs = o.attrs ∧ o'.base = some i := by
  unfold view
  rw [List.getElem?_eq_getElem hi]
  dsimp only
  generalize hn : (⟨ty.getD (w.objs[i]).cls, (w.objs[i]).data, w.size i, w.csize i, [], some i, (w.objs[i]).attrs⟩ : Obj ρ δ) = o
  have hb : o.base = some i := by rw [← hn]
  have e : owner (w.add o).1.objs w.objs.length = owner (w.add o).1.objs i := owner_some _ _ i (by rw [add_last]; exact hb) hi
  have eown : (w.add o).1.own w.objs.length = w.own i := by
    rw [← (add_own w o i hi).2]
    unfold World.own
    rw [e]
  refine ⟨(w.add o).1, rfl, e, ?_, ?_, ?_, ?_, ?_, ?_, ?_⟩
  · funext c; unfold World.read; rw [eown]
  · unfold World.columns; rw [eown]
  · unfold World.size; rw [eown]
  · unfold World.csize; rw [eown]
  · unfold World.hardcolumns; rw [eown]
  · unfold World.attrsOf
    rw [add_last, List.getElem?_eq_getElem hi, ← hn]
    rfl
  · intro p p' hp hp'
    rw [add_last] at hp'
    cases hp'
    cases hp
    rw [← hn]
    exact ⟨rfl, rfl, rfl⟩

/-- C128: which copies can be made: those of objects whose attributes were used before, directly or by an object that handed its dictionary on. -/
theorem copy_ok_iff {w : World ρ δ V} (hw : Wf w) (i : Nat) : (∃ p, copy w i = .ok p) ↔ ∃ o, w.objs[i]? = some o ∧ o.attrs.isSome := by
  constructor
  · rintro ⟨p, h⟩
    obtain ⟨o, _, r, ho, _, _, ha, _⟩ := copy_shape w i p h
    exact ⟨o, ho, by rw [ha]; rfl⟩
  · rintro ⟨o, ho, ha⟩
    obtain ⟨cols, hg⟩ := gather_ok w i (w.columns i) fun c hc => (read_iff w i c).mpr hc
    have hl : ∀ p ∈ cols.map (fun q => (q.1, q.2.1)), p.2.len w.bufs = w.size i := by
      intro p hp
      obtain ⟨q, hq, rfl⟩ := List.mem_map.mp hp
      exact (read_sized hw i q.1 q.2.1 q.2.2 ((gather_shape w i _ cols hg).2 q hq)).2
    obtain ⟨r, hr⟩ := Option.isSome_iff_exists.mp ha
    unfold copy
    rw [ho]
    dsimp only
    rw [hg]
    dsimp only [Except.bind]
    rw [setAll_ok _ _ _ hl, hr]
    exact ⟨_, rfl⟩

/-- C128: a copy of an object whose attributes were never used is an AttributeError. -/
theorem copy_refused {w : World ρ δ V} (hw : Wf w) (i : Nat) (o : Obj ρ δ) (ho : w.objs[i]? = some o) (ha : o.attrs = none) : copy w i = .error .attributeError := by
  obtain ⟨cols, hg⟩ := gather_ok w i (w.columns i) fun c hc => (read_iff w i c).mpr hc
  have hl : ∀ p ∈ cols.map (fun q => (q.1, q.2.1)), p.2.len w.bufs = w.size i := by
    intro p hp
    obtain ⟨q, hq, rfl⟩ := List.mem_map.mp hp
    exact (read_sized hw i q.1 q.2.1 q.2.2 ((gather_shape w i _ cols hg).2 q hq)).2
  unfold copy
  rw [ho]
  dsimp only
  rw [hg]
  dsimp only [Except.bind]
  rw [setAll_ok _ _ _ hl, ha]

/-- The reading of a new object with its own memory. -/
theorem new_read (w : World ρ δ V) (o : Obj ρ δ) (hb : o.base = none) (c : String) : (w.add o).1.read w.objs.length c = o.read c := by
  unfold World.read
  rw [(add_own_last w o hb).2]

/-- C128: a copy has all columns of the original, as the same dask arrays; none of them is a default column any more; it has its own memory and its own attributes with the same
content. -/
theorem copy_spec {w : World ρ δ V} (hw : Wf w) (i : Nat) (w' : World ρ δ V) (j : Nat) (h : copy w i = .ok (w', j)) :
    j = w.objs.length ∧ owner w'.objs j = j ∧ w'.bufs = w.bufs ∧ (∀ c x d, w.read i c = .ok (x, d) → w'.read j c = .ok (x, false)) ∧
      w'.size j = w.size i ∧ w'.csize j = w.csize i ∧ w'.attrsOf j = w.attrsOf i ∧
      (∀ o o', w.objs[i]? = some o → w'.objs[j]? = some o' → o'.cls = o.cls ∧ o'.attrs = some w.dicts.length ∧ o'.data = o.data) := by
  obtain ⟨o, cols, r, ho, hg, _, ha, hp⟩ := copy_shape w i (w', j) h
  have hnd : ((cols.map fun q => (q.1, q.2.1)).map Prod.fst).Nodup := by
    have := (gather_shape w i _ cols hg).1
    rw [List.map_map]
    show (cols.map Prod.fst).Nodup
    rw [this]
    exact columns_nodup w i
  generalize hn : (⟨o.cls, o.data, w.size i, w.csize i, (cols.map fun q => (q.1, q.2.1)).foldl (fun l p => put p.1 p.2 l) [], none, some w.dicts.length⟩ : Obj ρ δ) = n at hp
  have hb : n.base = none := by rw [← hn]
  have hj : j = w.objs.length := congrArg Prod.snd hp
  have hw' : w' = (({ w with dicts := w.dicts ++ [(w.dicts[r]?).getD []] } : World ρ δ V).add n).1 := congrArg Prod.fst hp
  subst hj
  obtain ⟨a1, a2⟩ := add_own_last ({ w with dicts := w.dicts ++ [(w.dicts[r]?).getD []] } : World ρ δ V) n hb
  have a3 := add_last ({ w with dicts := w.dicts ++ [(w.dicts[r]?).getD []] } : World ρ δ V) n
  dsimp only at a1 a2 a3
  rw [← hw'] at a1 a2 a3
  refine ⟨rfl, a1, by rw [hw']; rfl, ?_, ?_, ?_, ?_, ?_⟩
  · intro c x d hr
    unfold World.read
    rw [a2]
    dsimp only
    unfold Obj.read
    have : get c n.over = some x := by
      rw [← hn]
      dsimp only
      rw [fold_get _ hnd, gather_names w i _ cols hg (columns_nodup w i), if_pos ((read_iff w i c).mp ⟨_, hr⟩), hr]
      rfl
    rw [this]
  · unfold World.size
    rw [a2, ← hn]
    rfl
  · unfold World.csize
    rw [a2, ← hn]
    rfl
  · unfold World.attrsOf
    rw [a3, ← hn, ho]
    simp only [Option.bind_some, ha]
    rw [hw']
    show (w.dicts ++ [(w.dicts[r]?).getD []])[w.dicts.length]?.getD [] = _
    rw [List.getElem?_append_right (Nat.le_refl _), Nat.sub_self]
    rfl
  · intro p p' hp1 hp2
    rw [a3] at hp2
    cases hp2
    rw [ho] at hp1
    cases hp1
    rw [← hn]
    exact ⟨rfl, rfl, rfl⟩

/-- The columns of a copy are those of the original and those of its class. -/
theorem copy_columns {w : World ρ δ V} (hw : Wf w) (i : Nat) (w' : World ρ δ V) (j : Nat) (h : copy w i = .ok (w', j)) (o : Obj ρ δ) (ho : w.objs[i]? = some o) (c : String) :
    c ∈ w'.columns j ↔ c ∈ w.columns i ∨ (get c o.cls.dflt).isSome := by
  obtain ⟨o2, cols, r, ho2, hg, _, ha, hp⟩ := copy_shape w i (w', j) h
  rw [ho] at ho2
  cases ho2
  have hnd : ((cols.map fun q => (q.1, q.2.1)).map Prod.fst).Nodup := by
    have := (gather_shape w i _ cols hg).1
    rw [List.map_map]
    show (cols.map Prod.fst).Nodup
    rw [this]
    exact columns_nodup w i
  have hj : j = w.objs.length := congrArg Prod.snd hp
  have hw' := congrArg Prod.fst hp
  dsimp only at hw'
  subst hj
  obtain ⟨p, hpo⟩ := own_some w i (List.getElem?_eq_some_iff.mp ho).1
  unfold World.columns
  rw [hw']
  have a2 := (add_own_last ({ w with dicts := w.dicts ++ [(w.dicts[r]?).getD []] } : World ρ δ V)
    ⟨o.cls, o.data, w.size i, w.csize i, (cols.map fun q => (q.1, q.2.1)).foldl (fun l p => put p.1 p.2 l) [], none, some w.dicts.length⟩ rfl).2
  dsimp only at a2
  rw [a2]
  show c ∈ Obj.columns _ ↔ c ∈ w.columns i ∨ _
  rw [mem_columns]
  dsimp only
  rw [fold_get _ hnd, gather_names w i _ cols hg (columns_nodup w i)]
  constructor
  · rintro (h1 | h1 | h1)
    · obtain ⟨y, hy⟩ := hard_in_columns hw i o p ho hpo c h1
      exact Or.inl ((read_iff w i c).mp ⟨_, hy⟩)
    · by_cases hc : c ∈ w.columns i
      · exact Or.inl hc
      · rw [if_neg hc] at h1; cases h1
    · exact Or.inr h1
  · rintro (h1 | h1)
    · obtain ⟨x, hx⟩ := (read_iff w i c).mpr h1
      rw [if_pos h1, hx]
      exact Or.inr (Or.inl rfl)
    · exact Or.inr (Or.inr h1)

theorem sub_ok (w : World ρ δ V) (n i : Nat) (ix : Index) : ∀ (cols : List (String × Col ρ × Bool)), (∀ p ∈ cols, p.2.2 = false → Fits (p.2.1.len w.bufs) ix) → ∃ l, sub w n i ix cols = .ok l
  | [], _ => ⟨[], rfl⟩
  | p :: cols, h => by
    obtain ⟨l, hl⟩ := sub_ok w n i ix cols fun q hq => h q (List.mem_cons_of_mem _ hq)
    unfold sub at hl ⊢
    rw [List.filter_cons]
    cases hd : p.2.2 with
    | true => exact ⟨l, hl⟩
    | false =>
      obtain ⟨x, hx⟩ := (pick_ok_iff w.bufs p.2.1 ix).mpr (h p List.mem_cons_self hd)
      simp only [Bool.not_false, if_true]
      rw [List.mapM_cons, hx, hl]
      exact ⟨_, rfl⟩

/-- C128: which slices can be made: the size can be computed, and, if there is any column that is not default, the index fits and no such column is called `cls`, `size` or `comm`. -/
theorem slice_ok_iff {w : World ρ δ V} (hw : Wf w) (i : Nat) (ix : Index) (hix : ix ≠ .ellipsis) :
    (∃ p, slice w i ix = .ok p) ↔ i < w.objs.length ∧ (∃ n, NBK.Slicing.newSize (w.size i) ix = .ok n) ∧
      ∀ c x, w.read i c = .ok (x, false) → Fits (w.size i) ix ∧ c ∉ reserved := by
  constructor
  · rintro ⟨p, h⟩
    obtain ⟨o, ho, ⟨e, _⟩ | ⟨_, n, cols, l, hn, hg, hs, hres, _, _⟩⟩ := slice_shape w i ix p h
    · exact absurd e hix
    · refine ⟨(List.getElem?_eq_some_iff.mp ho).1, ⟨n, hn⟩, ?_⟩
      intro c x hr
      obtain ⟨g1, g2⟩ := gather_shape w i _ cols hg
      have hnd : (cols.map Prod.fst).Nodup := by rw [g1]; exact columns_nodup w i
      have hmem : c ∈ cols.map Prod.fst := by rw [g1]; exact (read_iff w i c).mp ⟨_, hr⟩
      obtain ⟨q, hq, rfl⟩ := List.mem_map.mp hmem
      have := g2 q hq
      rw [hr] at this
      have hq2 : (x, false) = q.2 := Except.ok.inj this
      obtain ⟨s1, s2, _⟩ := sub_names w n i ix cols l hs hnd q.1
      obtain ⟨y, hy⟩ := Option.isSome_iff_exists.mp (s2 ⟨x, by rw [hq2]; exact hq⟩)
      obtain ⟨y', z, h1, h2, _⟩ := s1 y hy
      have h3 := g2 _ h1
      rw [hr] at h3
      cases h3
      refine ⟨?_, hres _ (get_mem _ _ _ hy)⟩
      rw [← (read_sized hw i q.1 x false hr).2]
      exact (pick_ok_iff w.bufs x ix).mp ⟨z, h2⟩
  · rintro ⟨hi, ⟨n, hn⟩, hall⟩
    obtain ⟨cols, hg⟩ := gather_ok w i (w.columns i) fun c hc => (read_iff w i c).mpr hc
    obtain ⟨g1, g2⟩ := gather_shape w i _ cols hg
    have hnd : (cols.map Prod.fst).Nodup := by rw [g1]; exact columns_nodup w i
    obtain ⟨l, hs⟩ := sub_ok w n i ix cols (by
      intro p hp hd
      have hr : w.read i p.1 = .ok (p.2.1, false) := by rw [g2 p hp, ← hd]
      rw [(read_sized hw i p.1 p.2.1 false hr).2]
      exact (hall p.1 p.2.1 hr).1)
    have hl : ∀ q ∈ l, q.1 ∉ reserved ∧ q.2.len w.bufs = n := by
      intro q hq
      obtain ⟨s1, s2, s3⟩ := sub_names w n i ix cols l hs hnd q.1
      obtain ⟨y, z, h1, h2, h3⟩ := s1 q.2 (get_of_mem q.1 q.2 l s3 hq)
      have hr := g2 _ h1
      obtain ⟨k1, k2⟩ := read_sized hw i q.1 y false hr
      refine ⟨(hall q.1 y hr).2, ?_⟩
      obtain ⟨_, p2, _⟩ := pick_spec w.bufs y k1 ix z h2
      rw [k2, hn] at p2
      have : z.len w.bufs = n := (Except.ok.inj p2).symm
      rw [h3]
      split
      · exact this
      · exact this
    unfold slice
    rw [List.getElem?_eq_getElem hi]
    dsimp only
    rw [if_neg hix, hn]
    dsimp only
    rw [hg]
    dsimp only [Except.bind]
    have hs' := hs
    unfold sub at hs'
    rw [hs']
    dsimp only
    rw [fromColumns_ok w _ _ n l _ (fun q hq => (hl q hq).1) fun q hq => (hl q hq).2]
    exact ⟨_, rfl⟩

/-- `cat[...]` is the catalog itself. -/
theorem slice_ellipsis (w : World ρ δ V) (i : Nat) (hi : i < w.objs.length) : slice w i .ellipsis = .ok (w, i) := by
  unfold slice
  rw [List.getElem?_eq_getElem hi]
  simp

/-- C128: a slice holds the indexed rows of every column that is not default, has its own memory, the size of the index, and shares the dictionary of attributes. The rows are those of
the column whenever they are computed: also after the caller has written into the arrays, and also for the small slices that are copied. -/
theorem slice_spec {w : World ρ δ V} (hw : Wf w) (i : Nat) (ix : Index) (hix : ix ≠ .ellipsis) (w' : World ρ δ V) (j : Nat) (h : slice w i ix = .ok (w', j)) :
    j = w.objs.length ∧ owner w'.objs j = j ∧ w'.bufs = w.bufs ∧ NBK.Slicing.newSize (w.size i) ix = .ok (w'.size j) ∧ w'.attrsOf j = w.attrsOf i ∧
      (∀ c x, w.read i c = .ok (x, false) → ∃ y, w'.read j c = .ok (y, false) ∧
        ∀ bufs, Grow w.bufs bufs → NBK.Slicing.colIndex (x.eval bufs) ix = .ok (y.eval bufs)) ∧
      (∀ o o', w.objs[i]? = some o → w'.objs[j]? = some o' → o'.cls = sliceCls w o ∧ o'.attrs = o.attrs ∧ o'.data = o.data ∧
        ∀ c, (∀ x, w.read i c ≠ .ok (x, false)) → w'.read j c = classRead o' c) := by
  obtain ⟨o, ho, ⟨e, _⟩ | ⟨_, n, cols, l, hn, hg, hs, _, _, hp⟩⟩ := slice_shape w i ix (w', j) h
  · exact absurd e hix
  · obtain ⟨g1, g2⟩ := gather_shape w i _ cols hg
    have hnd : (cols.map Prod.fst).Nodup := by rw [g1]; exact columns_nodup w i
    generalize hnew : (⟨sliceCls w o, o.data, n, n, l.foldl (fun l p => put p.1 p.2 l) [], none, o.attrs⟩ : Obj ρ δ) = new at hp
    have hb : new.base = none := by rw [← hnew]
    have hj : j = w.objs.length := congrArg Prod.snd hp
    have hw' : w' = (w.add new).1 := congrArg Prod.fst hp
    subst hj
    obtain ⟨a1, a2⟩ := add_own_last w new hb
    have a3 := add_last w new
    rw [← hw'] at a1 a2 a3
    refine ⟨rfl, a1, by rw [hw']; rfl, ?_, ?_, ?_, ?_⟩
    · unfold World.size
      rw [a2, ← hnew]
      unfold World.size at hn
      rw [hn]
      rfl
    · unfold World.attrsOf
      rw [a3, ← hnew, ho, hw']
      rfl
    · intro c x hr
      have hmem : c ∈ cols.map Prod.fst := by rw [g1]; exact (read_iff w i c).mp ⟨_, hr⟩
      obtain ⟨q, hq, rfl⟩ := List.mem_map.mp hmem
      have := g2 q hq
      rw [hr] at this
      have hq2 : (x, false) = q.2 := Except.ok.inj this
      obtain ⟨s1, s2, s3⟩ := sub_names w n i ix cols l hs hnd q.1
      obtain ⟨y, hy⟩ := Option.isSome_iff_exists.mp (s2 ⟨x, by rw [hq2]; exact hq⟩)
      obtain ⟨x', z, h1, h2, h3⟩ := s1 y hy
      have hx' := g2 _ h1
      rw [hr] at hx'
      cases hx'
      refine ⟨y, ?_, ?_⟩
      · unfold World.read
        rw [a2]
        dsimp only
        unfold Obj.read
        have : get q.1 new.over = some y := by
          rw [← hnew]
          dsimp only
          rw [fold_get l s3]
          exact hy
        rw [this]
      · intro bufs hgrow
        obtain ⟨k1, k2⟩ := read_sized hw i q.1 x false hr
        obtain ⟨k3, k4⟩ := grow_len w.bufs bufs hgrow x k1
        have h2' : pick bufs x ix = .ok z := by
          unfold pick at h2 ⊢
          rw [k4]
          exact h2
        have := (pick_spec bufs x k3 ix z h2').2.2
        rw [this, h3]
        split
        · rfl
        · rfl
    · intro p p' hp1 hp2
      rw [a3] at hp2
      cases hp2
      rw [ho] at hp1
      cases hp1
      refine ⟨by rw [← hnew], by rw [← hnew], by rw [← hnew], ?_⟩
      intro c hc
      unfold World.read
      rw [a2]
      dsimp only
      unfold classRead Obj.read
      dsimp only
      have : get c new.over = none := by
        rw [← hnew]
        dsimp only
        obtain ⟨s1, s2, s3⟩ := sub_names w n i ix cols l hs hnd c
        rw [fold_get l s3]
        cases hg2 : get c l with
        | none => rfl
        | some y =>
          obtain ⟨x', z, h1, _, _⟩ := s1 y hg2
          exact absurd (g2 _ h1) (hc x')
      rw [this]
      rfl

/-- C128: a selection of columns: a plain catalog with exactly these columns, the same dask arrays, none of them default, and its own attributes with the same content. -/
theorem select_spec (plain : Cls ρ δ) {w : World ρ δ V} (hw : Wf w) (i : Nat) (names : List String) (hne : names ≠ []) (w' : World ρ δ V) (j : Nat)
    (h : select plain w i names = .ok (w', j)) :
    j = w.objs.length ∧ owner w'.objs j = j ∧ w'.bufs = w.bufs ∧ w'.size j = w.size i ∧ w'.attrsOf j = w.attrsOf i ∧
      (∀ c ∈ names, ∃ x d, w.read i c = .ok (x, d) ∧ w'.read j c = .ok (x, false)) ∧
      ∃ o', w'.objs[j]? = some o' ∧ o'.cls = plain ∧ o'.attrs = some w.dicts.length ∧ ∀ c, c ∉ names → w'.read j c = classRead o' c := by
  obtain ⟨o, cols, ho, hcol, hg, _, _, hp⟩ := select_shape plain w i names (w', j) h hne
  have hi := (List.getElem?_eq_some_iff.mp ho).1
  have hnd : ((cols.map fun q => (q.1, q.2.1)).map Prod.fst).Nodup := by
    have := (gather_shape w i _ cols hg).1
    rw [List.map_map]
    show (cols.map Prod.fst).Nodup
    rw [this]
    exact List.nodup_dedup _
  generalize hnew : (⟨plain, o.data, w.size i, w.size i, (cols.map fun q => (q.1, q.2.1)).foldl (fun l p => put p.1 p.2 l) [], none, some w.dicts.length⟩ : Obj ρ δ) = new at hp
  generalize hw1 : (({ w with dicts := w.dicts ++ [[]] } : World ρ δ V).add new).1 = w1 at hp
  dsimp only at hp
  have hj : j = w.objs.length := congrArg Prod.snd hp
  have hw' : w' = { (w1.touch i).1 with dicts := (w1.touch i).1.dicts.set w.dicts.length (((w1.touch i).1.dicts[(w1.touch i).2]?).getD []) } := congrArg Prod.fst hp
  subst hj
  have b1 : w1.objs = w.objs ++ [new] := by rw [← hw1]; rfl
  have b2 : w1.dicts = w.dicts ++ [[]] := by rw [← hw1]; rfl
  have b3 : w1.bufs = w.bufs := by rw [← hw1]; rfl
  have hlast : w1.objs[w.objs.length]? = some new := by rw [b1, List.getElem?_append_right (Nat.le_refl _), Nat.sub_self]; rfl
  have hold : w1.objs[i]? = some o := by rw [b1, List.getElem?_append_left hi]; exact ho
  have hattr : o.attrs.elim True fun r => r < w.dicts.length := by
    cases ha : o.attrs with
    | none => trivial
    | some r => exact hw.dict i o r ho ha
  -- what `self.attrs` does
  have htouch : (w1.touch i).1.objs[w.objs.length]? = some new ∧ (w1.touch i).1.bufs = w.bufs ∧ w.dicts.length < (w1.touch i).1.dicts.length ∧
      ((w1.touch i).1.dicts[(w1.touch i).2]?).getD [] = w.attrsOf i := by
    unfold World.touch World.attrsOf
    rw [hold, ho]
    dsimp only [Option.bind_some]
    cases ha : o.attrs with
    | some r =>
      rw [ha] at hattr
      dsimp only
      refine ⟨hlast, b3, by rw [b2]; simp, ?_⟩
      rw [b2, List.getElem?_append_left hattr]
      rfl
    | none =>
      dsimp only
      refine ⟨by rw [List.getElem?_set_ne (by omega)]; exact hlast, b3, by rw [b2]; simp, ?_⟩
      rw [List.getElem?_append_right (Nat.le_refl _), Nat.sub_self]
      rfl
  obtain ⟨t1, t2, t3, t4⟩ := htouch
  have a3 : w'.objs[w.objs.length]? = some new := by rw [hw']; exact t1
  have a1 : owner w'.objs w.objs.length = w.objs.length := owner_none _ _ (by rw [a3, ← hnew]; rfl)
  have a2 : w'.own w.objs.length = some new := by unfold World.own; rw [a1]; exact a3
  have hover : ∀ c, get c new.over = if c ∈ names then (w.read i c).toOption.map Prod.fst else none := by
    intro c
    rw [← hnew]
    dsimp only
    rw [fold_get _ hnd, gather_names w i _ cols hg (List.nodup_dedup _)]
    simp only [List.mem_dedup]
  refine ⟨rfl, a1, by rw [hw']; exact t2, ?_, ?_, ?_, new, a3, by rw [← hnew], by rw [← hnew], ?_⟩
  · unfold World.size
    rw [a2, ← hnew]
    rfl
  · unfold World.attrsOf
    rw [a3, ← hnew]
    dsimp only [Option.bind_some]
    rw [hw']
    dsimp only
    rw [List.getElem?_set_self t3, t4]
    rfl
  · intro c hc
    obtain ⟨x, hx⟩ := (read_iff w i c).mpr (hcol c hc)
    refine ⟨x.1, x.2, hx, ?_⟩
    unfold World.read
    rw [a2]
    dsimp only
    unfold Obj.read
    rw [hover c, if_pos hc, hx]
    rfl
  · intro c hc
    unfold World.read
    rw [a2]
    dsimp only
    unfold classRead Obj.read
    dsimp only
    rw [hover c, if_neg hc]
    rfl

/-- C128: which selections can be made. -/
theorem select_ok_iff (plain : Cls ρ δ) {w : World ρ δ V} (hw : Wf w) (i : Nat) (names : List String) (hne : names ≠ []) :
    (∃ p, select plain w i names = .ok p) ↔ i < w.objs.length ∧ ∀ c ∈ names, c ∈ w.columns i ∧ c ∉ reserved := by
  constructor
  · rintro ⟨p, h⟩
    obtain ⟨o, cols, ho, hcol, hg, hres, _, _⟩ := select_shape plain w i names p h hne
    refine ⟨(List.getElem?_eq_some_iff.mp ho).1, fun c hc => ⟨hcol c hc, ?_⟩⟩
    have : c ∈ cols.map Prod.fst := by rw [(gather_shape w i _ cols hg).1]; exact List.mem_dedup.mpr hc
    obtain ⟨q, hq, rfl⟩ := List.mem_map.mp this
    exact hres q hq
  · rintro ⟨hi, hall⟩
    obtain ⟨cols, hg⟩ := gather_ok w i names.dedup fun c hc => (read_iff w i c).mpr (hall c (List.mem_dedup.mp hc)).1
    obtain ⟨g1, g2⟩ := gather_shape w i _ cols hg
    unfold select
    rw [List.getElem?_eq_getElem hi]
    dsimp only
    rw [if_neg hne, if_neg, hg]
    · dsimp only [Except.bind]
      rw [fromColumns_ok]
      · exact ⟨_, rfl⟩
      · intro q hq
        obtain ⟨p, hp, rfl⟩ := List.mem_map.mp hq
        have : p.1 ∈ cols.map Prod.fst := List.mem_map.mpr ⟨p, hp, rfl⟩
        rw [g1] at this
        exact (hall p.1 (List.mem_dedup.mp this)).2
      · intro q hq
        obtain ⟨p, hp, rfl⟩ := List.mem_map.mp hq
        exact (read_sized hw i p.1 p.2.1 p.2.2 (g2 p hp)).2
    · rw [List.any_eq_true]
      rintro ⟨c, hc, h⟩
      have h' : c ∉ w.columns i := by simpa using h
      exact h' (hall c hc).1

end NBK.CatObj
