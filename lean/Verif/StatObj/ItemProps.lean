import Verif.StatObj.Props
set_option linter.unusedSimpArgs false
/-!
# C123: indexing, re-binning, new variables and the constructor
-/
namespace NBK.StatObj
open NBK.PySlice
variable {V : Type} [Num V]

theorem key_valid (n : Nat) (k : Key) (l : List Nat) (h : k.indices n = .ok l) (hv : k.valid n = true) : ∀ j ∈ l, j < n := by
  cases k with
  | int i =>
    unfold Key.indices at h
    injection h with h
    subst h
    simp only [Key.valid, decide_eq_true_eq] at hv
    intro j hj
    rw [List.mem_singleton] at hj
    subst hj
    split <;> omega
  | sl s =>
    unfold Key.indices at h
    dsimp only at h
    cases hs : PySlice.indices n s with
    | none => rw [hs] at h; cases h
    | some t =>
      obtain ⟨a, b, c⟩ := t
      rw [hs] at h
      injection h with h
      subst h
      intro j hj
      obtain ⟨p, hp, rfl⟩ := List.mem_map.mp hj
      have := walk_valid n s a b c hs p hp
      omega
  | lst l' =>
    unfold Key.indices at h
    injection h with h
    subst h
    intro j hj
    simp only [Key.valid, List.all_eq_true, decide_eq_true_eq] at hv
    exact hv j hj

theorem given_spec (sh : List Nat) (keys : List Key) (ind : List (List Nat)) (h : indicesOf sh keys = .ok ind)
    (hv : (List.zipWith (fun n k => Key.valid n k) sh keys).any (fun b => !b) = false) :
    ind.length = sh.length ∧ ∀ p ∈ sh.zip ind, ∀ k ∈ p.2, k < p.1 := by
  have base : ∀ sh : List Nat, (sh.map List.range).length = sh.length ∧ ∀ p ∈ sh.zip (sh.map List.range), ∀ k ∈ p.2, k < p.1 := by
    intro sh
    refine ⟨by simp, ?_⟩
    induction sh with
    | nil => intro p hp; simp at hp
    | cons n sh ih =>
      intro p hp
      rw [List.map_cons, List.zip_cons_cons, List.mem_cons] at hp
      rcases hp with rfl | hp
      · intro k hk
        exact List.mem_range.mp hk
      · exact ih p hp
  induction sh generalizing keys ind with
  | nil =>
    unfold indicesOf at h
    injection h with h
    subst h
    exact base []
  | cons n sh ih =>
    cases keys with
    | nil =>
      unfold indicesOf at h
      injection h with h
      subst h
      exact base _
    | cons key keys =>
      unfold indicesOf at h
      cases hk : key.indices n with
      | error e => rw [hk] at h; cases h
      | ok l =>
        rw [hk] at h
        dsimp only at h
        cases hr : indicesOf sh keys with
        | error e => rw [hr] at h; cases h
        | ok ls =>
          rw [hr] at h
          injection h with h
          subst h
          simp only [List.zipWith_cons_cons, List.any_cons, Bool.or_eq_false_iff, Bool.not_eq_false'] at hv
          obtain ⟨i1, i2⟩ := ih keys ls hr hv.2
          refine ⟨by simp [i1], ?_⟩
          intro p hp
          rw [List.zip_cons_cons, List.mem_cons] at hp
          rcases hp with rfl | hp
          · exact key_valid n key _ hk hv.1
          · exact i2 p hp

theorem squeezeAll_made (w w' : World V) (st st' : Stat) (ds : List String) (h : Wf w st) (hs : squeezeAll w st ds = .ok (w', st')) :
    Made w w' st' ∧ (ds = [] → st' = st ∧ w' = w) ∧ (ds ≠ [] → w.cells.length ≤ st'.data.buf ∧ w.bits.length ≤ st'.mask.buf ∧ w.names.length ≤ st'.fsum) := by
  induction ds generalizing w st with
  | nil =>
    unfold squeezeAll at hs
    cases hs
    exact ⟨⟨Ext.refl _, rfl, h⟩, fun _ => ⟨rfl, rfl⟩, fun hx => absurd rfl hx⟩
  | cons d ds ih =>
    unfold squeezeAll at hs
    cases hq : squeeze w st d with
    | error e => rw [hq] at hs; cases hs
    | ok r =>
      rw [hq] at hs
      dsimp only at hs
      obtain ⟨m, c1, c2, c3, c4, _⟩ := squeeze_made w r.1 st r.2 d h hq
      obtain ⟨m2, i1, i2⟩ := ih r.1 r.2 m.wf hs
      refine ⟨⟨m.ext.trans m2.ext, m2.stats.trans m.stats, m2.wf⟩, fun hx => absurd hx (by simp), fun _ => ?_⟩
      by_cases hds : ds = []
      · obtain ⟨rfl, _⟩ := i1 hds
        rw [c2, c3, c4]
        exact ⟨le_refl _, le_refl _, le_refl _⟩
      · obtain ⟨a, b, c⟩ := i2 hds
        exact ⟨le_trans m.ext.cells.length_le a, le_trans m.ext.bits.length_le b, le_trans m.ext.names.length_le c⟩

/-- The object before the squeezes. -/
theorem getItem_parts (w w' : World V) (st st' : Stat) (keys : List Key) (h : Wf w st) (hs : getItem w st keys = .ok (w', st')) :
    ∃ (ind : List (List Nat)) (r : World V × Stat), ind.length = st.shape.length ∧ (∀ p ∈ st.shape.zip ind, ∀ k ∈ p.2, k < p.1) ∧ Made w r.1 r.2 ∧ r.2.shape = ind.map List.length ∧
      indicesOf st.shape keys = .ok ind ∧
      r.2.fsum = st.fsum ∧ r.1.names = w.names ∧
      (keys.any Key.isLst = true → r.2.data.buf = w.cells.length ∧ r.2.mask.buf = w.bits.length ∧
        (keys.any Key.isInt = false)) ∧
      (keys.any Key.isLst = false → r.1.cells = w.cells ∧ r.1.bits = w.bits ∧
        r.2.data = { st.data with idx := pick 0 st.data.idx (offsets st.shape ind) } ∧
        r.2.mask = { st.mask with idx := pick 0 st.mask.idx (offsets st.shape ind) }) ∧
      squeezeAll r.1 r.2 ((st.dims.zip keys).filterMap fun p => if p.2.isInt then some p.1 else none) = .ok (w', st') ∧
      keys ≠ [] ∧ keys.length ≤ st.dims.length := by
  unfold getItem at hs
  cases hg : indicesOf st.shape keys with
  | error e => rw [hg] at hs; cases hs
  | ok ind =>
    rw [hg] at hs
    dsimp only at hs
    split at hs
    · cases hs
    rename_i h0
    split at hs
    · cases hs
    rename_i h1
    split at hs
    · cases hs
    split at hs
    · cases hs
    rename_i h3
    split at hs
    · cases hs
    rename_i h4
    obtain ⟨g1, g2⟩ := given_spec st.shape keys ind hg (by simpa using h4)
    have hil : ind.length = st.dims.length := by rw [g1, h.shape_length]
    have hol := offsets_length st.shape ind g1
    have hlt := offsets_lt st.shape ind g1 g2
    by_cases hk : keys.any Key.isLst
    · rw [if_pos hk] at hs
      obtain ⟨e, hd, hm⟩ := picked_made w st h ind hil g2
      obtain ⟨m, msh⟩ := finalize_made _ st (h.ext e) _ _ ind hd hm hil (by simp [hol]) (by simp [hol])
      refine ⟨ind, _, g1, g2, ⟨e.trans m.ext, m.stats, m.wf⟩, msh, rfl, rfl, rfl, fun _ => ⟨rfl, rfl, ?_⟩, fun hx => (by rw [hk] at hx; cases hx), hs, h0, by omega⟩
      rw [not_or] at h3
      cases hi : keys.any Key.isInt with
      | false => rfl
      | true => exact absurd ⟨hk, hi⟩ h3.2
    · rw [if_neg hk] at hs
      have hd : DArr.In w.cells { st.data with idx := pick 0 st.data.idx (offsets st.shape ind) } := by
        refine ⟨h.data.buf, fun k hk => ?_, h.data.width, h.data.slots, h.data.names, h.data.places⟩
        obtain ⟨j, hj, rfl⟩ := List.mem_map.mp hk
        have hj2 : j < st.data.idx.length := by rw [h.dsize]; exact hlt j hj
        rw [List.getD_eq_getElem?_getD (l := st.data.idx), List.getElem?_eq_getElem hj2]
        exact h.data.idx _ (List.getElem_mem hj2)
      have hm : Arr.In w.bits { st.mask with idx := pick 0 st.mask.idx (offsets st.shape ind) } := by
        refine ⟨h.mask.1, fun k hk => ?_⟩
        obtain ⟨j, hj, rfl⟩ := List.mem_map.mp hk
        have hj2 : j < st.mask.idx.length := by rw [h.msize]; exact hlt j hj
        rw [List.getD_eq_getElem?_getD (l := st.mask.idx), List.getElem?_eq_getElem hj2]
        exact h.mask.2 _ (List.getElem_mem hj2)
      obtain ⟨m, msh⟩ := finalize_made w st h _ _ ind hd hm hil (by dsimp only; rw [pick_length, hol]) (by dsimp only; rw [pick_length, hol])
      exact ⟨ind, _, g1, g2, m, msh, rfl, rfl, rfl, fun hx => absurd hx hk, fun _ => ⟨rfl, rfl, rfl, rfl⟩, hs, h0, by omega⟩

theorem getItem_made (w w' : World V) (st st' : Stat) (keys : List Key) (h : Wf w st) (hs : getItem w st keys = .ok (w', st')) : Made w w' st' := by
  obtain ⟨_, r, _, _, m, _, _, _, _, _, _, hq, _, _⟩ := getItem_parts w w' st st' keys h hs
  obtain ⟨m2, _⟩ := squeezeAll_made r.1 w' r.2 st' _ m.wf hq
  exact ⟨m.ext.trans m2.ext, m2.stats.trans m.stats, m2.wf⟩

theorem int_dims (dims : List String) (keys : List Key) (hl : keys.length ≤ dims.length) :
    ((dims.zip keys).filterMap fun p => if p.2.isInt then some p.1 else none) = [] ↔ keys.any Key.isInt = false := by
  induction dims generalizing keys with
  | nil =>
    cases keys with
    | nil => simp
    | cons _ _ => simp at hl
  | cons d dims ih =>
    cases keys with
    | nil => simp
    | cons k keys =>
      have := ih keys (by simpa using hl)
      rw [List.zip_cons_cons, List.filterMap_cons, List.any_cons]
      cases hk : k.isInt <;> simp [hk, this]

/-- C123: with an integer or a list among the indices the data and the mask are new. -/
theorem getItem_fresh (w w' : World V) (st st' : Stat) (keys : List Key) (h : Wf w st) (hs : getItem w st keys = .ok (w', st'))
    (hk : keys.any (fun k => k.isInt || k.isLst) = true) : w.cells.length ≤ st'.data.buf ∧ w.bits.length ≤ st'.mask.buf := by
  obtain ⟨_, r, _, _, m, _, _, _, _, hlst, _, hq, h0, hl⟩ := getItem_parts w w' st st' keys h hs
  obtain ⟨m2, i1, i2⟩ := squeezeAll_made r.1 w' r.2 st' _ m.wf hq
  cases hi : keys.any Key.isInt with
  | false =>
    obtain ⟨rfl, _⟩ := i1 ((int_dims st.dims keys hl).mpr hi)
    have hl : keys.any Key.isLst = true := by
      obtain ⟨k, hk1, hk2⟩ := List.any_eq_true.mp hk
      have := List.any_eq_false.mp hi k hk1
      refine List.any_eq_true.mpr ⟨k, hk1, ?_⟩
      simpa [this] using hk2
    obtain ⟨a, b, _⟩ := hlst hl
    exact ⟨le_of_eq a.symm, le_of_eq b.symm⟩
  | true =>
    obtain ⟨a, b, _⟩ := i2 (fun hx => by rw [(int_dims st.dims keys hl).mp hx] at hi; cases hi)
    exact ⟨le_trans m.ext.cells.length_le a, le_trans m.ext.bits.length_le b⟩

/-- C123: with slices only the data and the mask are views, and the list `_fields_to_sum` is the same. -/
theorem getItem_view (w w' : World V) (st st' : Stat) (keys : List Key) (h : Wf w st) (hs : getItem w st keys = .ok (w', st'))
    (hk : keys.any (fun k => k.isInt || k.isLst) = false) :
    ∃ (ind : List (List Nat)), indicesOf st.shape keys = .ok ind ∧
      (∀ k ∈ offsets st.shape ind, k < st.size) ∧ st'.shape = ind.map List.length ∧
      w'.cells = w.cells ∧ w'.bits = w.bits ∧ w'.names = w.names ∧ st'.fsum = st.fsum ∧
      st'.data = { st.data with idx := pick 0 st.data.idx (offsets st.shape ind) } ∧
      st'.mask = { st.mask with idx := pick 0 st.mask.idx (offsets st.shape ind) } := by
  obtain ⟨ind, r, g1, g2, m, hsh, hg, hf, hnm, _, hv, hq, h0, hl⟩ := getItem_parts w w' st st' keys h hs
  obtain ⟨_, i1, _⟩ := squeezeAll_made r.1 w' r.2 st' _ m.wf hq
  have a1 : keys.any Key.isInt = false := List.any_eq_false.mpr fun k hx => by
    have := List.any_eq_false.mp hk k hx
    simp at this
    simp [this.1]
  have a2 : keys.any Key.isLst = false := List.any_eq_false.mpr fun k hx => by
    have := List.any_eq_false.mp hk k hx
    simp at this
    simp [this.2]
  obtain ⟨rfl, rfl⟩ := i1 ((int_dims st.dims keys hl).mpr a1)
  obtain ⟨b1, b2, b3, b4⟩ := hv a2
  exact ⟨ind, hg, offsets_lt _ _ g1 g2, hsh, b1, b2, hnm, hf, b3, b4⟩

/-! ## reindex -/

theorem put_keys {α : Type} (k : String) (v : α) (d : List (String × α)) (h : k ∈ d.map Prod.fst) : (put k v d).map Prod.fst = d.map Prod.fst := by
  induction d with
  | nil => cases h
  | cons p d ih =>
    unfold put
    by_cases hp : p.1 = k
    · rw [if_pos hp]; simp [hp]
    · rw [if_neg hp, List.map_cons, List.map_cons]
      rw [ih ((List.mem_cons.mp h).resolve_left (Ne.symm hp))]

theorem put_mem {α : Type} (k : String) (v : α) (d : List (String × α)) (p : String × α) (h : p ∈ put k v d) : p = (k, v) ∨ p ∈ d := by
  induction d with
  | nil => exact Or.inl (by simpa [put] using h)
  | cons q d ih =>
    unfold put at h
    by_cases hq : q.1 = k
    · rw [if_pos hq] at h
      rcases List.mem_cons.mp h with h | h
      · exact Or.inl h
      · exact Or.inr (by simp [h])
    · rw [if_neg hq] at h
      rcases List.mem_cons.mp h with h | h
      · exact Or.inr (by simp [h])
      · rcases ih h with h | h
        · exact Or.inl h
        · exact Or.inr (by simp [h])

theorem put_sizes (k : String) (x y : Arr) (hxy : x.idx.length = y.idx.length + 1) (a b : List (String × Arr)) (h : a.map Prod.fst = b.map Prod.fst)
    (hl : (a.map fun p => p.2.idx.length) = b.map fun p => p.2.idx.length + 1) :
    ((put k x a).map fun p => p.2.idx.length) = (put k y b).map fun p => p.2.idx.length + 1 := by
  induction a generalizing b with
  | nil =>
    cases b with
    | nil => simp [put, hxy]
    | cons _ _ => cases h
  | cons p a ih =>
    cases b with
    | nil => cases h
    | cons q b =>
      rw [List.map_cons, List.map_cons, List.cons.injEq] at h hl
      unfold put
      by_cases hp : p.1 = k
      · rw [if_pos hp, if_pos (h.1 ▸ hp), List.map_cons, List.map_cons, hl.2, hxy]
      · rw [if_neg hp, if_neg (h.1 ▸ hp), List.map_cons, List.map_cons, hl.1, ih b h.2 hl.2]

theorem reindex_made (w w' : World V) (st st' : Stat) (dim : String) (e : List V) (rows : List (List V)) (h : Wf w st)
    (hs : reindex w st dim e rows = .ok (w', st')) :
    Made w w' st' ∧ st'.data.buf = w.cells.length ∧ st'.mask.buf = w.bits.length ∧ st'.fsum = w.names.length := by
  unfold reindex at hs
  split at hs
  · cases hs
  rename_i hd
  rw [not_not] at hd
  dsimp only at hs
  split at hs
  · cases hs
  rename_i hc
  rw [not_or, not_or] at hc
  obtain ⟨hc, he, hr⟩ := hc
  have he : 1 ≤ e.length := List.length_pos_iff.mpr he
  have hr : ∀ r ∈ rows, r.length = st.data.width := fun r hx => by
    by_contra hne
    exact hr (List.any_eq_true.mpr ⟨r, hx, by simpa using hne⟩)
  have hc : rows.length = ((put dim ⟨w.nums.length + 1, List.range (e.length - 1)⟩ st.coords).map fun p => p.2.idx.length).prod := by
    by_contra hx
    exact hc hx
  injection hs with hs
  injection hs with e1 e2
  subst e1
  subst e2
  refine ⟨⟨⟨⟨_, rfl⟩, ⟨_, rfl⟩, ⟨_, rfl⟩, ⟨_, rfl⟩, List.prefix_rfl⟩, rfl, ?_⟩, rfl, rfl, rfl⟩
  exact {
    dims := h.dims
    ekeys := by dsimp only; rw [put_keys _ _ _ (by rw [h.ekeys]; exact hd), h.ekeys]
    ckeys := by dsimp only; rw [put_keys _ _ _ (by rw [h.ckeys]; exact hd), h.ckeys]
    edges := fun p hp => by
      rcases put_mem _ _ _ p hp with rfl | hp
      · refine ⟨by simp, fun k hk => ?_⟩
        simpa [List.getD_eq_getElem?_getD] using hk
      · exact (h.edges p hp).ext ⟨_, rfl⟩
    coords := fun p hp => by
      rcases put_mem _ _ _ p hp with rfl | hp
      · refine ⟨by simp, fun k hk => ?_⟩
        simpa [List.getD_eq_getElem?_getD, mids_length] using hk
      · exact (h.coords p hp).ext ⟨_, rfl⟩
    sizes := put_sizes _ _ _ (by simp; omega) _ _ (by rw [h.ekeys, h.ckeys]) h.sizes
    data := fresh_data w _ _ _ hr h.data.slots h.data.names h.data.places _ rfl
    mask := fresh_arr _ _ _ (by simp [maskOf])
    dsize := (List.length_range).trans hc
    msize := (List.length_range).trans hc
    attrs := h.attrs
    fsum := by simp }

/-! ## setItem and rename -/

theorem setItem_made (w w' : World V) (st st' : Stat) (key : String) (vals : List V) (h : Wf w st) (hs : setItem w st key vals = .ok (w', st')) :
    Made w w' st' ∧ st'.data.buf = w.cells.length ∧ st'.mask.buf = w.bits.length ∧ st'.fsum = st.fsum ∧ st'.edges = st.edges ∧ st'.coords = st.coords ∧
      st'.attrs = st.attrs ∧ st'.dims = st.dims := by
  unfold setItem at hs
  split at hs
  · cases hs
  rename_i hv
  have hv : vals.length = st.data.idx.length := by
    by_contra hx
    exact hv hx
  cases hn : newNames st key with
  | error e => rw [hn] at hs; cases hs
  | ok names =>
    rw [hn] at hs
    dsimp only at hs
    have hnd : names.Nodup := by
      unfold newNames at hn
      split at hn
      · cases hn
      · dsimp only at hn
        generalize fieldNames _ _ = nn at hn
        by_cases hx : nn.Nodup
        · rw [if_pos hx] at hn
          injection hn with hn
          rw [← hn]
          exact hx
        · rw [if_neg hx] at hn
          cases hn
    injection hs with hs
    injection hs with e1 e2
    subst e1
    subst e2
    refine ⟨⟨⟨List.prefix_rfl, ⟨_, rfl⟩, ⟨_, rfl⟩, List.prefix_rfl, List.prefix_rfl⟩, rfl, ?_⟩, rfl, rfl, rfl, rfl, rfl, rfl, rfl⟩
    exact {
      dims := h.dims
      ekeys := h.ekeys
      ckeys := h.ckeys
      edges := h.edges
      coords := h.coords
      sizes := h.sizes
      data := by
        refine fresh_data w _ _ _ ?_ ?_ ?_ ?_ _ (by simp)
        · intro r hr
          obtain ⟨k, _, rfl⟩ := List.mem_map.mp hr
          simp
        · intro p hp
          exact List.mem_range.mp (List.of_mem_zip hp).2
        · rw [List.map_fst_zip (by simp)]; exact hnd
        · rw [List.map_snd_zip (by simp)]; exact List.nodup_range
      mask := fresh_arr _ _ _ (by rw [List.length_zipWith, vals_length, h.msize, ← h.dsize, ← hv, Nat.min_self])
      dsize := (List.length_range).trans (hv.trans h.dsize)
      msize := (List.length_range).trans (hv.trans h.dsize)
      attrs := h.attrs
      fsum := h.fsum }

theorem rename_wf (w : World V) (st st' : Stat) (old new : String) (h : Wf w st) (hs : rename st old new = .ok st') :
    Wf w st' ∧ st'.data.buf = st.data.buf ∧ st'.mask = st.mask := by
  unfold rename at hs
  split at hs
  · cases hs
  dsimp only at hs
  split at hs
  · rename_i hnd
    injection hs with hs
    subst hs
    refine ⟨?_, rfl, rfl⟩
    have hlen : (st.variables.set (st.variables.idxOf old) new).length = (st.data.fields.map Prod.snd).length := by simp [Stat.variables]
    exact { h with
      data := by
        refine ⟨h.data.buf, h.data.idx, h.data.width, ?_, ?_, ?_⟩
        · intro p hp
          obtain ⟨q, hq, hqp⟩ := List.mem_map.mp (List.of_mem_zip hp).2
          rw [← hqp]
          exact h.data.slots q hq
        · dsimp only
          rw [List.map_fst_zip (le_of_eq hlen)]
          exact hnd
        · dsimp only
          rw [List.map_snd_zip (le_of_eq hlen.symm)]
          exact h.data.places
      dsize := h.dsize
      msize := h.msize }
  · cases hs

/-! ## The constructor -/

theorem init_made (w w' : World V) (st' : Stat) (dims : List String) (edges : List Arr) (data : DArr) (dshape : List Nat) (fsum : Nat)
    (coords : Option (List Arr)) (attrs : List (String × Nat)) (he : ∀ e ∈ edges, e.In w.nums) (hd : data.In w.cells) (hf : fsum < w.names.length)
    (ha : ∀ p ∈ attrs, p.2 < w.boxes.length) (hs : init w dims edges data dshape fsum coords attrs = .ok (w', st')) :
    Made w w' st' ∧ st'.data.buf = w.cells.length ∧ st'.mask.buf = w.bits.length ∧ st'.fsum = fsum ∧ st'.edges = dims.zip edges ∧
      (∀ p ∈ st'.coords, w.nums.length ≤ p.2.buf) := by
  unfold init at hs
  split at hs
  · cases hs
  rename_i h1
  have h1 : dims.length = edges.length := by
    by_contra hx
    exact h1 hx
  split at hs
  · cases hs
  rename_i h2
  have h2 : (dshape.map fun n => n + 1) = edges.map fun e => e.idx.length := by
    by_contra hx
    exact h2 hx
  dsimp only at hs
  generalize hcs : coordVals w edges coords = cs at hs
  split at hs
  · cases hs
  rename_i h3
  rw [not_or, not_or, not_not, not_not, not_not] at h3
  obtain ⟨h3, h4, h5⟩ := h3
  injection hs with hs
  injection hs with e1 e2
  subst e1
  subst e2
  have hdl : dshape.length = edges.length := by
    have := congrArg List.length h2
    simpa using this
  have hcl : cs.length = dims.length := by
    have := congrArg List.length h3
    rw [List.length_map] at this
    omega
  have hsn : (dims.zip cs).map Prod.snd = cs := List.map_snd_zip (by omega)
  have hsh : ((place w.nums.length (dims.zip cs)).map fun p => p.2.idx.length) = dshape := by
    rw [place_lengths]
    have : (fun (p : String × List V) => p.2.length) = List.length ∘ Prod.snd := rfl
    rw [this, ← List.map_map, hsn, h3]
  refine ⟨⟨⟨⟨_, rfl⟩, ⟨_, rfl⟩, ⟨_, rfl⟩, List.prefix_rfl, List.prefix_rfl⟩, rfl, ?_⟩, rfl, rfl, rfl, rfl, fun p hp => (place_bufs _ _ p hp).1⟩
  exact {
    dims := h5
    ekeys := List.map_fst_zip (by omega)
    ckeys := by dsimp only; rw [place_keys, List.map_fst_zip (by omega)]
    edges := fun p hp => (he p.2 (List.of_mem_zip hp).2).ext ⟨_, rfl⟩
    coords := fun p hp => by
      have := place_in w.nums [] (dims.zip cs) p hp
      rw [hsn, List.append_nil] at this
      exact this
    sizes := by
      dsimp only
      have a : (fun (p : String × Arr) => p.2.idx.length + 1) = (fun n => n + 1) ∘ fun p => p.2.idx.length := by funext p; rfl
      have b : (fun (p : String × Arr) => p.2.idx.length) = (fun e => e.idx.length) ∘ Prod.snd := by funext p; rfl
      rw [a, ← List.map_map, hsh, b, ← List.map_map, List.map_snd_zip (by omega), h2]
    data := fresh_data w _ _ _ (rows_width hd) hd.slots hd.names hd.places _ (rows_length _ _).symm
    mask := fresh_arr _ _ _ (by simp [maskOf, rows_length])
    dsize := by rw [Stat.size, Stat.shape]; dsimp only; rw [hsh, List.length_range, h4]
    msize := by rw [Stat.size, Stat.shape]; dsimp only; rw [hsh, List.length_range, h4]
    attrs := ha
    fsum := hf }

theorem fromState_made (w w' : World V) (st st' : Stat) (h : Wf w st) (h0 : 0 < w.names.length) (hs : fromState w st = .ok (w', st')) :
    Made w w' st' ∧ st'.data.buf = w.cells.length ∧ st'.mask.buf = w.bits.length ∧ st'.fsum = 0 ∧ st'.edges = st.edges := by
  obtain ⟨m, a, b, c, d, _⟩ := init_made w w' st' _ _ _ _ _ _ _ (fun e he => by
    obtain ⟨p, hp, rfl⟩ := List.mem_map.mp he
    exact h.edges p hp) h.data h0 h.attrs hs
  refine ⟨m, a, b, c, d.trans ?_⟩
  rw [← h.ekeys]
  clear * -
  induction st.edges with
  | nil => rfl
  | cons p l ih => simp [ih]

end NBK.StatObj
