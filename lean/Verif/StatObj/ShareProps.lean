import Verif.StatObj.OwnProps
set_option linter.unusedSimpArgs false
/-!
# C123: what a derived object shows, and what it shares with the one it comes from
-/
namespace NBK.StatObj
open NBK.PySlice
variable {V : Type} [Num V]

theorem fresh_vals {α : Type} (z : α) (mem : List (List α)) (l : List α) (n : Nat) (h : n = l.length) :
    (Arr.mk mem.length (List.range n)).vals z (mem ++ [l]) = l := by
  subst h
  unfold Arr.vals
  dsimp only
  rw [getD_append_self, pick_range]

omit [Num V] in
theorem fresh_rows (mem : List (List (List V))) (rows : List (List V)) (n : Nat) (h : n = rows.length) (f : List (String × Nat)) (wd : Nat) :
    (DArr.mk mem.length (List.range n) f wd).rows (mem ++ [rows]) = rows := by
  subst h
  unfold DArr.rows
  dsimp only
  rw [getD_append_self, pick_range]

/-- C123: a copy shows what the original shows. -/
theorem copy_obs (w : World V) (st : Stat) (h : Wf w st) : obs (copy w st).1 (copy w st).2 = obs w st := by
  have h1 : (copy w st).2.mask.vals false (copy w st).1.bits = st.mask.vals false w.bits := fresh_vals _ _ _ _ (vals_length _ _ _).symm
  have h2 : (copy w st).2.data.rows (copy w st).1.cells = st.data.rows w.cells := fresh_rows _ _ _ (rows_length _ _).symm _ _
  have h3 : (copy w st).1.names.getD (copy w st).2.fsum [] = w.names.getD st.fsum [] := getD_append_self _ _ _
  unfold obs DArr.col
  rw [h1, h2, h3]
  rfl

/-- C123: squeezing drops the dimension and nothing else. -/
theorem squeeze_obs (w w' : World V) (st st' : Stat) (dim : String) (h : Wf w st) (hs : squeeze w st dim = .ok (w', st')) :
    (obs w' st').cols = (obs w st).cols ∧ (obs w' st').mask = (obs w st).mask ∧ (obs w' st').attrs = (obs w st).attrs ∧
    (obs w' st').fsum = (obs w st).fsum ∧ (obs w' st').edges = del dim (obs w st).edges ∧ (obs w' st').coords = del dim (obs w st).coords := by
  obtain ⟨_, rfl, a, b, c, d, e, f, g⟩ := squeeze_made w w' st st' dim h hs
  have hc := copy_obs w st h
  have del_map : ∀ l : List (String × Arr), ((del dim l).map fun p => (p.1, p.2.vals (Num.zero : V) w.nums)) =
      del dim (l.map fun p => (p.1, p.2.vals Num.zero w.nums)) := by
    intro l
    unfold del
    rw [List.filter_map]
    rfl
  refine ⟨?_, ?_, ?_, ?_, ?_, ?_⟩
  · have := congrArg Obs.cols hc
    simpa only [obs, a] using this
  · have := congrArg Obs.mask hc
    simpa only [obs, b] using this
  · simp only [obs, g]; rfl
  · have := congrArg Obs.fsum hc
    simpa only [obs, c] using this
  · simp only [obs, e]; exact del_map _
  · simp only [obs, f]; exact del_map _

omit [Num V] in
theorem get_map {α β : Type} (f : α → β) (k : String) (l : List (String × α)) : get k (l.map fun p => (p.1, f p.2)) = (get k l).map f := by
  induction l with
  | nil => rfl
  | cons p l ih =>
    rw [List.map_cons]
    unfold get
    by_cases hp : p.1 = k
    · rw [if_pos hp, if_pos hp]; rfl
    · rw [if_neg hp, if_neg hp, ih]

theorem obs_col (w : World V) (st : Stat) (name : String) : get name (obs w st).cols = (get name st.data.fields).map fun s => st.data.col w.cells s := by
  unfold obs
  exact get_map (fun s => st.data.col w.cells s) name st.data.fields

/-- C123: `take` picks the elements chosen along the axes, of every variable and of the mask. -/
theorem take_obs (w w' : World V) (st st' : Stat) (ind : List (List Nat)) (h : Wf w st) (hs : take w st ind = .ok (w', st')) :
    (obs w' st').cols = (obs w st).cols.map (fun c => (c.1, pick Num.zero c.2 (offsets st.shape ind))) ∧
    (obs w' st').mask = pick false (obs w st).mask (offsets st.shape ind) ∧ (obs w' st').attrs = (obs w st).attrs ∧
    (obs w' st').fsum = (obs w st).fsum ∧ (obs w' st').dims = (obs w st).dims ∧ st'.attrs = st.attrs := by
  unfold take at hs
  split at hs
  · cases hs
  rename_i hc
  rw [not_or, Bool.not_eq_true] at hc
  have hl : ind.length = st.dims.length := by
    by_contra hx
    exact hc.1 hx
  have hlt := offsets_lt st.shape ind (by rw [hl, h.shape_length]) (ind_valid _ _ hc.2)
  dsimp only at hs
  injection hs with hs
  have e2 : st' = _ := (congrArg Prod.snd hs).symm
  have e1 : w' = _ := (congrArg Prod.fst hs).symm
  have hb : w'.boxes = w.boxes := by rw [e1]; rfl
  have hrows : st'.data.rows w'.cells = pick [] (st.data.rows w.cells) (offsets st.shape ind) := by
    rw [e2, e1]
    exact fresh_rows _ _ _ (pick_length _ _ _).symm _ _
  refine ⟨?_, ?_, ?_, ?_, ?_, ?_⟩
  · simp only [obs, DArr.col, hrows, List.map_map]
    have hf : st'.data.fields = st.data.fields := by rw [e2]; rfl
    rw [hf]
    apply List.map_congr_left
    intro p _
    simp only [Function.comp, Prod.mk.injEq, true_and]
    unfold pick
    rw [List.map_map]
    apply List.map_congr_left
    intro k hk
    have hk2 : k < (st.data.rows w.cells).length := by rw [rows_length, h.dsize]; exact hlt k hk
    simp [List.getD_eq_getElem?_getD, hk2]
  · simp only [obs]
    rw [e2, e1]
    exact fresh_vals _ _ _ _ (pick_length _ _ _).symm
  · simp only [obs, hb]
    rw [e2]
    rfl
  · simp only [obs]
    rw [e2, e1]
    rfl
  · rw [e2]; rfl
  · rw [e2]; rfl

/-- C123: slices show the chosen elements of every variable and of the mask. -/
theorem slices_obs (w w' : World V) (st st' : Stat) (keys : List Key) (h : Wf w st) (hs : getItem w st keys = .ok (w', st'))
    (hk : keys.any (fun k => k.isInt || k.isLst) = false) : ∃ ind, indicesOf st.shape keys = .ok ind ∧
    (obs w' st').cols = (obs w st).cols.map (fun c => (c.1, pick Num.zero c.2 (offsets st.shape ind))) ∧
    (obs w' st').mask = pick false (obs w st).mask (offsets st.shape ind) ∧ (obs w' st').fsum = (obs w st).fsum := by
  obtain ⟨ind, hi, hlt, _, e1, e2, e3, e4, e5, e6⟩ := getItem_view w w' st st' keys h hs hk
  refine ⟨ind, hi, ?_, ?_, ?_⟩
  · have hrows : st'.data.rows w'.cells = pick [] (st.data.rows w.cells) (offsets st.shape ind) := by
      rw [e1, e5]
      unfold DArr.rows
      dsimp only
      rw [pick_pick [] _ st.data.idx (offsets st.shape ind) (fun k hx => by rw [h.dsize]; exact hlt k hx)]
    simp only [obs, DArr.col, hrows, List.map_map]
    have hf : st'.data.fields = st.data.fields := by rw [e5]
    rw [hf]
    apply List.map_congr_left
    intro p _
    simp only [Function.comp, Prod.mk.injEq, true_and]
    unfold pick
    rw [List.map_map]
    apply List.map_congr_left
    intro k hk
    have hk2 : k < (st.data.rows w.cells).length := by rw [rows_length, h.dsize]; exact hlt k hk
    simp [List.getD_eq_getElem?_getD, hk2]
  · simp only [obs]
    rw [e2, e6]
    unfold Arr.vals
    dsimp only
    rw [pick_pick false _ st.mask.idx (offsets st.shape ind) (fun k hx => by rw [h.msize]; exact hlt k hx)]
  · simp only [obs, e3, e4]

/-- C123: a selection of variables has those variables, in the order given, with their values; the mask is that of all the variables. -/
theorem names_obs (w w' : World V) (st st' : Stat) (names : List String) (h : Wf w st) (hs : getNames w st names = .ok (w', st')) :
    (obs w' st').cols.map Prod.fst = names ∧ (∀ n ∈ names, get n (obs w' st').cols = get n (obs w st).cols) ∧
    (obs w' st').mask = (obs w st).mask ∧ (obs w' st').fsum = (obs w st).fsum := by
  obtain ⟨m, a, b, c, d, e, f, g⟩ := getNames_made w w' st st' names h hs
  unfold getNames at hs
  split at hs
  · cases hs
  rename_i hn
  split at hs
  · cases hs
  split at hs
  · cases hs
  dsimp only at hs
  injection hs with hs
  have e2 : st' = _ := (congrArg Prod.snd hs).symm
  have e1 : w' = _ := (congrArg Prod.fst hs).symm
  refine ⟨?_, ?_, ?_, ?_⟩
  · rw [← c]
    simp [obs, Stat.variables]
  · intro n hn
    rw [obs_col, obs_col, g]
    have hcol : ∀ s, st'.data.col w.cells s = st.data.col w.cells s := fun s => by
      unfold DArr.col DArr.rows
      rw [a, b]
    have hgn : get n st'.data.fields = get n st.data.fields := by
      obtain ⟨s, hs'⟩ := get_some n st'.data.fields (by rw [← Stat.variables, c]; exact hn)
      have hm := d _ (get_mem _ _ _ hs')
      obtain ⟨t, ht⟩ := get_some n st.data.fields (List.mem_map.mpr ⟨_, hm, rfl⟩)
      have := List.inj_on_of_nodup_map h.data.names hm (get_mem _ _ _ ht) rfl
      rw [hs', ht]
      exact congrArg (fun p => some p.2) this
    rw [hgn]
    cases get n st.data.fields with
    | none => rfl
    | some s => simp [hcol]
  · simp only [obs]
    rw [e2, e1]
    exact fresh_vals _ _ _ _ (vals_length _ _ _).symm
  · simp only [obs]
    rw [e2, e1]
    rfl

/-! ## Writing through a view -/

theorem col_poke (mem mem' : List (List (List V))) (d d2 : DArr) (hd : d.In mem) (name : String) (s p k q : Nat) (v : V) (hs : get name d.fields = some s)
    (hk : d.idx[p]? = some k) (hb : d2.buf = d.buf) (hq : d2.idx[q]? = some k) (h : pokeVar mem d name p v = .ok mem') :
    (d2.col mem' s)[q]? = some v := by
  unfold pokeVar at h
  rw [hs] at h
  dsimp only at h
  rw [hk] at h
  injection h with h
  subst h
  have hkl := hd.idx k (List.mem_of_getElem? hk)
  have hw := hd.width _ (List.getElem_mem hkl)
  have hsl := hd.slots _ (get_mem _ _ _ hs)
  dsimp only at hsl
  unfold DArr.col DArr.rows pick
  rw [hb, List.getElem?_map, List.getElem?_map, hq]
  simp only [Option.map_some, Option.some.injEq]
  have hbl : (mem.modify d.buf fun l => l.modify k fun r => r.set s v).getD d.buf [] = (mem.getD d.buf []).modify k fun r => r.set s v := by
    rw [List.getD_eq_getElem?_getD, List.getD_eq_getElem?_getD, List.getElem?_modify]
    simp [hd.buf]
  rw [hbl]
  generalize mem.getD d.buf [] = l at *
  rw [List.getD_eq_getElem?_getD (l := l.modify k _), List.getElem?_modify]
  simp only [if_true, hkl, List.getElem?_eq_getElem, Option.map_some, Option.getD_some]
  show (l[k].set s v).getD s Num.zero = v
  rw [List.getD_eq_getElem?_getD, List.getElem?_set_self (by rw [hw]; exact hsl)]
  rfl

/-- C123: slices give a window on the original: a value written into the new object appears in the original, at the place it was taken from. -/
theorem slices_shared (w w' w2 : World V) (i : Nat) (st st' : Stat) (keys : List Key) (h : Good w) (hi : w.stats[i]? = some st)
    (hk : keys.any (fun k => k.isInt || k.isLst) = false) (h1 : step w (.getItem i keys) = .ok w') (hn : w'.stats[w.stats.length]? = some st')
    (name : String) (p : Nat) (v : V) (h2 : step w' (.writeVar w.stats.length name p v) = .ok w2) :
    ∃ ind q col, indicesOf st.shape keys = .ok ind ∧ (offsets st.shape ind)[p]? = some q ∧ w2.stats[i]? = some st ∧
      get name (obs w2 st).cols = some col ∧ col[q]? = some v := by
  have hg' := step_good w w' _ h h1
  obtain ⟨st0, hx, h1⟩ := withStat_ok _ _ _ _ h1
  rw [hi] at hx
  injection hx with hx
  subst hx
  obtain ⟨r, hr, rfl⟩ := add_ok _ _ h1
  have hw := h.2 st (List.mem_of_getElem? hi)
  have m := getItem_made w r.1 st r.2 keys hw hr
  obtain ⟨ind, hind, hlt, _, e1, _, _, _, e5, _⟩ := getItem_view w r.1 st r.2 keys hw hr hk
  have hst' : st' = r.2 := by
    dsimp only at hn
    rw [m.stats, List.getElem?_concat_length] at hn
    injection hn with hn
    exact hn.symm
  obtain ⟨s0, hx, h2⟩ := withStat_ok _ _ _ _ h2
  rw [hn] at hx
  injection hx with hx
  subst hx
  obtain ⟨mem, hm, rfl⟩ := map_ok _ _ _ h2
  dsimp only at hm
  have hm2 := hm
  unfold pokeVar at hm2
  cases hg : get name st'.data.fields with
  | none => rw [hg] at hm2; cases hm2
  | some s =>
    rw [hg] at hm2
    dsimp only at hm2
    cases hp : st'.data.idx[p]? with
    | none => rw [hp] at hm2; cases hm2
    | some k =>
      have hdata : st'.data = { st.data with idx := pick 0 st.data.idx (offsets st.shape ind) } := by rw [hst', e5]
      have hp2 := hp
      rw [hdata] at hp2
      simp only [pick, List.getElem?_map, Option.map_eq_some_iff] at hp2
      obtain ⟨q, hq, hqk⟩ := hp2
      have hql : q < st.data.idx.length := by rw [hw.dsize]; exact hlt q (List.mem_of_getElem? hq)
      have hqk : st.data.idx[q]? = some k := by
        rw [List.getD_eq_getElem?_getD, List.getElem?_eq_getElem hql] at hqk
        rw [List.getElem?_eq_getElem hql]
        exact congrArg some hqk
      have hin : st'.data.In r.1.cells := by rw [hst']; exact m.wf.data
      have key := col_poke r.1.cells mem st'.data st.data hin name s p k q v hg hp (by rw [hdata]) hqk hm
      refine ⟨ind, q, st.data.col mem s, hind, hq, ?_, ?_, key⟩
      · dsimp only
        rw [m.stats, List.getElem?_append_left (List.getElem?_eq_some_iff.mp hi).1]
        exact hi
      · rw [obs_col]
        have : get name st.data.fields = some s := by rw [hdata] at hg; exact hg
        rw [this]
        rfl

/-- C123: so does a selection of variables. -/
theorem names_shared (w w' w2 : World V) (i : Nat) (st st' : Stat) (names : List String) (h : Good w) (hi : w.stats[i]? = some st)
    (h1 : step w (.getNames i names) = .ok w') (hn : w'.stats[w.stats.length]? = some st')
    (name : String) (p : Nat) (v : V) (h2 : step w' (.writeVar w.stats.length name p v) = .ok w2) :
    ∃ col, w2.stats[i]? = some st ∧ get name (obs w2 st).cols = some col ∧ col[p]? = some v := by
  obtain ⟨st0, hx, h1⟩ := withStat_ok _ _ _ _ h1
  rw [hi] at hx
  injection hx with hx
  subst hx
  obtain ⟨r, hr, rfl⟩ := add_ok _ _ h1
  have hw := h.2 st (List.mem_of_getElem? hi)
  obtain ⟨m, a, b, c, d, _⟩ := getNames_made w r.1 st r.2 names hw hr
  have hst' : st' = r.2 := by
    dsimp only at hn
    rw [m.stats, List.getElem?_concat_length] at hn
    injection hn with hn
    exact hn.symm
  obtain ⟨s0, hx, h2⟩ := withStat_ok _ _ _ _ h2
  rw [hn] at hx
  injection hx with hx
  subst hx
  obtain ⟨mem, hm, rfl⟩ := map_ok _ _ _ h2
  dsimp only at hm
  have hm2 := hm
  unfold pokeVar at hm2
  cases hg : get name st'.data.fields with
  | none => rw [hg] at hm2; cases hm2
  | some s =>
    rw [hg] at hm2
    dsimp only at hm2
    cases hp : st'.data.idx[p]? with
    | none => rw [hp] at hm2; cases hm2
    | some k =>
      have key := col_poke r.1.cells mem st'.data st.data (by rw [hst']; exact m.wf.data) name s p k p v hg hp (by rw [hst', a])
        (by rw [← hp, hst', b]) hm
      refine ⟨st.data.col mem s, ?_, ?_, key⟩
      · dsimp only
        rw [m.stats, List.getElem?_append_left (List.getElem?_eq_some_iff.mp hi).1]
        exact hi
      · rw [obs_col]
        have hmem := d _ (by rw [← hst']; exact get_mem _ _ _ hg)
        obtain ⟨t, ht⟩ := get_some name st.data.fields (List.mem_map.mpr ⟨_, hmem, rfl⟩)
        have := List.inj_on_of_nodup_map hw.data.names hmem (get_mem _ _ _ ht) rfl
        have : s = t := congrArg Prod.snd this
        rw [ht, this]
        rfl

/-! ## Edges and coordinates -/

omit [Num V] in
theorem vals_poke {α : Type} (z : α) (mem mem' : List (List α)) (a b : Arr) (ha : a.In mem) (p k q : Nat) (v : α) (hk : a.idx[p]? = some k) (hb : b.buf = a.buf)
    (hq : b.idx[q]? = some k) (h : poke mem a p v = .ok mem') : (b.vals z mem')[q]? = some v := by
  unfold poke at h
  rw [hk] at h
  injection h with h
  subst h
  have hkl := ha.2 k (List.mem_of_getElem? hk)
  unfold Arr.vals pick
  rw [hb, List.getElem?_map, hq]
  simp only [Option.map_some, Option.some.injEq]
  have hbl : (mem.modify a.buf fun l => l.set k v).getD a.buf [] = (mem.getD a.buf []).set k v := by
    rw [List.getD_eq_getElem?_getD, List.getD_eq_getElem?_getD, List.getElem?_modify]
    simp [ha.1]
  rw [hbl, List.getD_eq_getElem?_getD, List.getElem?_set_self hkl]
  rfl

/-- C123: the arrays of edges are not copied by `copy`: an edge changed in the copy is changed in the original. -/
theorem copy_edges_shared (w w' w2 : World V) (i : Nat) (st : Stat) (h : Good w) (hi : w.stats[i]? = some st) (h1 : step w (.copy i) = .ok w')
    (dim : String) (p : Nat) (v : V) (h2 : step w' (.writeEdge w.stats.length dim p v) = .ok w2) :
    ∃ e, w2.stats[i]? = some st ∧ get dim (obs w2 st).edges = some e ∧ e[p]? = some v := by
  obtain ⟨st0, hx, h1⟩ := withStat_ok _ _ _ _ h1
  rw [hi] at hx
  injection hx with hx
  subst hx
  obtain ⟨r, hr, rfl⟩ := add_ok _ _ h1
  injection hr with hr
  subst hr
  have hw := h.2 st (List.mem_of_getElem? hi)
  have m := copy_made w st hw
  obtain ⟨s0, hx, h2⟩ := withStat_ok _ _ _ _ h2
  dsimp only at hx
  rw [m.stats, List.getElem?_concat_length] at hx
  injection hx with hx
  subst hx
  cases hg : get dim (copy w st).2.edges with
  | none => rw [hg] at h2; cases h2
  | some a =>
    rw [hg] at h2
    obtain ⟨mem, hm, rfl⟩ := map_ok _ _ _ h2
    have hm2 := hm
    unfold poke at hm2
    cases hp : a.idx[p]? with
    | none => rw [hp] at hm2; cases hm2
    | some k =>
      have hin := hw.edges _ (get_mem _ _ _ hg)
      refine ⟨a.vals Num.zero mem, ?_, ?_, vals_poke Num.zero _ mem a a hin p k p v hp rfl hp hm⟩
      · dsimp only
        rw [m.stats, List.getElem?_append_left (List.getElem?_eq_some_iff.mp hi).1]
        exact hi
      · unfold obs
        dsimp only
        rw [get_map (fun (x : Arr) => x.vals (Num.zero : V) mem) dim st.edges]
        have : get dim st.edges = some a := hg
        rw [this]
        rfl

theorem finalize_bufs (w : World V) (st : Stat) (data : DArr) (mask : Arr) (ind : List (List Nat)) :
    (∀ p ∈ (finalize w st data mask ind).2.edges, w.nums.length ≤ p.2.buf) ∧ ∀ p ∈ (finalize w st data mask ind).2.coords, w.nums.length ≤ p.2.buf := by
  constructor
  · intro p hp
    exact (place_bufs _ _ p hp).1
  · intro p hp
    exact le_trans (Nat.le_add_right _ _) (place_bufs _ _ p hp).1

theorem squeezeAll_sub (w w' : World V) (st st' : Stat) (ds : List String) (h : Wf w st) (hs : squeezeAll w st ds = .ok (w', st')) :
    (∀ p ∈ st'.edges, p ∈ st.edges) ∧ (∀ p ∈ st'.coords, p ∈ st.coords) ∧ st'.attrs = st.attrs := by
  induction ds generalizing w st with
  | nil => unfold squeezeAll at hs; cases hs; exact ⟨fun _ h => h, fun _ h => h, rfl⟩
  | cons d ds ih =>
    unfold squeezeAll at hs
    cases hq : squeeze w st d with
    | error e => rw [hq] at hs; cases hs
    | ok r =>
      rw [hq] at hs
      obtain ⟨m, _, _, _, _, _, e1, e2, e3⟩ := squeeze_made w r.1 st r.2 d h hq
      obtain ⟨i1, i2, i3⟩ := ih r.1 r.2 m.wf hs
      rw [e1] at i1
      rw [e2] at i2
      exact ⟨fun p hp => List.mem_of_mem_filter (i1 p hp), fun p hp => List.mem_of_mem_filter (i2 p hp), i3.trans e3⟩

/-- C123: selections have edges and coordinates of their own. -/
theorem selection_edges (w w' : World V) (st st' : Stat) (h : Wf w st)
    (hs : (∃ ind, take w st ind = .ok (w', st')) ∨ (∃ names, getNames w st names = .ok (w', st')) ∨ ∃ keys, getItem w st keys = .ok (w', st')) :
    (∀ p ∈ st'.edges, w.nums.length ≤ p.2.buf) ∧ (∀ p ∈ st'.coords, w.nums.length ≤ p.2.buf) ∧ st'.attrs = st.attrs := by
  rcases hs with ⟨ind, hs⟩ | ⟨names, hs⟩ | ⟨keys, hs⟩
  · unfold take at hs
    split at hs
    · cases hs
    dsimp only at hs
    injection hs with hs
    have e2 : st' = _ := (congrArg Prod.snd hs).symm
    rw [e2]
    exact ⟨(finalize_bufs _ _ _ _ _).1, (finalize_bufs _ _ _ _ _).2, rfl⟩
  · unfold getNames at hs
    split at hs
    · cases hs
    split at hs
    · cases hs
    split at hs
    · cases hs
    dsimp only at hs
    injection hs with hs
    have e2 : st' = _ := (congrArg Prod.snd hs).symm
    rw [e2]
    exact ⟨(finalize_bufs _ _ _ _ _).1, (finalize_bufs _ _ _ _ _).2, rfl⟩
  · have hparts := getItem_parts w w' st st' keys h hs
    obtain ⟨_, r, _, _, m, _, _, _, _, _, _, hq, _, _⟩ := hparts
    unfold getItem at hs
    split at hs
    · cases hs
    dsimp only at hs
    split at hs
    · cases hs
    split at hs
    · cases hs
    split at hs
    · cases hs
    split at hs
    · cases hs
    rename_i h3
    split at hs
    · cases hs
    rename_i ind hind _ _ _ h4
    obtain ⟨g1, g2⟩ := given_spec st.shape keys ind hind (by simpa using h4)
    have hil : ind.length = st.dims.length := by rw [g1, h.shape_length]
    by_cases hk : keys.any Key.isLst
    · rw [if_pos hk] at hs
      obtain ⟨e, hd, hm⟩ := picked_made w st h ind hil g2
      have hol := offsets_length st.shape ind g1
      have m := (finalize_made _ st (h.ext e) _ _ ind hd hm hil (by simp [hol]) (by simp [hol])).1
      obtain ⟨a, b, c⟩ := squeezeAll_sub _ _ _ _ _ m.wf hs
      exact ⟨fun p hp => (finalize_bufs _ _ _ _ _).1 p (a p hp), fun p hp => (finalize_bufs _ _ _ _ _).2 p (b p hp), c⟩
    · rw [if_neg hk] at hs
      have wfr : Wf (finalize w st { st.data with idx := pick 0 st.data.idx (offsets st.shape ind) }
          { st.mask with idx := pick 0 st.mask.idx (offsets st.shape ind) } ind).1 (finalize w st { st.data with idx := pick 0 st.data.idx (offsets st.shape ind) }
          { st.mask with idx := pick 0 st.mask.idx (offsets st.shape ind) } ind).2 := by
        have hol := offsets_length st.shape ind g1
        have hlt := offsets_lt st.shape ind g1 g2
        refine (finalize_made w st h _ _ ind ?_ ?_ hil (by dsimp only; rw [pick_length, hol]) (by dsimp only; rw [pick_length, hol])).1.wf
        · refine ⟨h.data.buf, fun k hk => ?_, h.data.width, h.data.slots, h.data.names, h.data.places⟩
          obtain ⟨j, hj, rfl⟩ := List.mem_map.mp hk
          have hj2 : j < st.data.idx.length := by rw [h.dsize]; exact hlt j hj
          rw [List.getD_eq_getElem?_getD (l := st.data.idx), List.getElem?_eq_getElem hj2]
          exact h.data.idx _ (List.getElem_mem hj2)
        · refine ⟨h.mask.1, fun k hk => ?_⟩
          obtain ⟨j, hj, rfl⟩ := List.mem_map.mp hk
          have hj2 : j < st.mask.idx.length := by rw [h.msize]; exact hlt j hj
          rw [List.getD_eq_getElem?_getD (l := st.mask.idx), List.getElem?_eq_getElem hj2]
          exact h.mask.2 _ (List.getElem_mem hj2)
      obtain ⟨a, b, c⟩ := squeezeAll_sub _ _ _ _ _ wfr hs
      exact ⟨fun p hp => (finalize_bufs _ _ _ _ _).1 p (a p hp), fun p hp => (finalize_bufs _ _ _ _ _).2 p (b p hp), c⟩

/-- C123: edges and coordinates changed in memory that is newer than an object are not seen in it. -/
theorem edges_apart (w : World V) (st : Stat) (h : Wf w st) (w1 w2 : World V) (e : Ext w w1) (a : Arr) (ha : w.nums.length ≤ a.buf) (p : Nat) (v : V)
    (mem : List (List V)) (hm : poke w1.nums a p v = .ok mem) (hw : w2 = { w1 with nums := mem }) : obs w2 st = obs w st := by
  subst hw
  have key : ∀ x : Arr, x.In w.nums → x.vals Num.zero mem = x.vals Num.zero w.nums := fun x hx => by
    rw [← hx.vals Num.zero e.nums]
    unfold poke at hm
    cases hp : a.idx[p]? with
    | none => rw [hp] at hm; cases hm
    | some k =>
      rw [hp] at hm
      injection hm with hm
      subst hm
      unfold Arr.vals
      rw [getD_modify_ne _ _ _ _ (by have := hx.1; omega)]
  have h0 := h.obs e
  have hc : ∀ l : List (String × Arr), (∀ q ∈ l, q.2.In w.nums) →
      (l.map fun q => (q.1, q.2.vals Num.zero mem)) = l.map fun q => (q.1, q.2.vals Num.zero w1.nums) := fun l hl =>
    List.map_congr_left fun q hq => by rw [key q.2 (hl q hq), (hl q hq).vals Num.zero e.nums]
  rw [← h0]
  unfold obs
  dsimp only
  rw [hc _ h.edges, hc _ h.coords]

/-! ## attrs and the list of fields to sum -/

/-- C123: every way to derive an object keeps the values of `attrs` themselves: a value changed in place is changed in both. -/
theorem attrs_shared (w : World V) (st st' : Stat) (h : Wf w st) (ha : st'.attrs = st.attrs) (k : String) (b : Nat) (hb : get k st'.attrs = some b) (v : V)
    (w1 : World V) (e : Ext w w1) : get k (obs { w1 with boxes := w1.boxes.set b v } st).attrs = some v := by
  unfold obs
  dsimp only
  rw [get_map (fun x => (w1.boxes.set b v).getD x Num.zero) k st.attrs, ← ha, hb]
  have : b < w1.boxes.length := lt_of_lt_of_le (h.attrs (k, b) (by rw [← ha]; exact get_mem _ _ _ hb)) e.boxes.length_le
  simp [List.getD_eq_getElem?_getD, this]

/-- C123: a selection keeps the list `_fields_to_sum` itself: what is appended to it in the selection is appended for the original. -/
theorem fsum_shared (w w' w2 : World V) (i : Nat) (st st' : Stat) (h : Good w) (hi : w.stats[i]? = some st)
    (h1 : (∃ ind, step w (.take i ind) = .ok w') ∨ (∃ names, step w (.getNames i names) = .ok w') ∨
      ∃ keys, keys.any (fun k => k.isInt || k.isLst) = false ∧ step w (.getItem i keys) = .ok w')
    (hn : w'.stats[w.stats.length]? = some st') (name : String) (h2 : step w' (.appendSum w.stats.length name) = .ok w2) :
    (obs w2 st).fsum = (obs w st).fsum ++ [name] := by
  have hw := h.2 st (List.mem_of_getElem? hi)
  have key : st'.fsum = st.fsum ∧ w.names <+: w'.names := by
    rcases h1 with ⟨ind, h1⟩ | ⟨names, h1⟩ | ⟨keys, hk, h1⟩
    all_goals
      obtain ⟨st0, hx, h1⟩ := withStat_ok _ _ _ _ h1
      rw [hi] at hx
      injection hx with hx
      subst hx
      obtain ⟨r, hr, rfl⟩ := add_ok _ _ h1
    · obtain ⟨m, _, _, c⟩ := take_made w r.1 st r.2 ind hw hr
      dsimp only at hn
      rw [m.stats, List.getElem?_concat_length] at hn
      injection hn with hn
      subst hn
      exact ⟨c, m.ext.names⟩
    · obtain ⟨m, _, _, _, _, _, c, _⟩ := getNames_made w r.1 st r.2 names hw hr
      dsimp only at hn
      rw [m.stats, List.getElem?_concat_length] at hn
      injection hn with hn
      subst hn
      exact ⟨c, m.ext.names⟩
    · have m := getItem_made w r.1 st r.2 keys hw hr
      obtain ⟨_, _, _, _, _, _, _, c, _⟩ := getItem_view w r.1 st r.2 keys hw hr hk
      dsimp only at hn
      rw [m.stats, List.getElem?_concat_length] at hn
      injection hn with hn
      subst hn
      exact ⟨c, m.ext.names⟩
  obtain ⟨s0, hx, h2⟩ := withStat_ok _ _ _ _ h2
  rw [hn] at hx
  injection hx with hx
  subst hx
  injection h2 with h2
  subst h2
  unfold obs
  dsimp only
  rw [key.1]
  have hl := lt_of_lt_of_le hw.fsum key.2.length_le
  rw [← getD_prefix key.2 st.fsum [] hw.fsum, List.getD_eq_getElem?_getD, List.getElem?_modify]
  simp [hl]

/-- C123: the default of `fields_to_sum` is one list for all objects. -/
theorem default_fsum_shared (w w' : World V) (h : Good w) (i j : Nat) (si sj : Stat) (hi : w.stats[i]? = some si) (hj : w.stats[j]? = some sj)
    (h0 : si.fsum = sj.fsum) (name : String) (hs : step w (.appendSum i name) = .ok w') : (obs w' sj).fsum = (obs w sj).fsum ++ [name] := by
  have hw := h.2 sj (List.mem_of_getElem? hj)
  obtain ⟨s0, hx, h2⟩ := withStat_ok _ _ _ _ hs
  rw [hi] at hx
  injection hx with hx
  subst hx
  injection h2 with h2
  subst h2
  unfold obs
  dsimp only
  rw [h0, List.getD_eq_getElem?_getD, List.getD_eq_getElem?_getD, List.getElem?_modify]
  simp [hw.fsum]

/-- C123: which axes can be squeezed: those of length one, and not the only one. -/
theorem squeeze_which (w : World V) (st : Stat) (dim : String) :
    (∃ r, squeeze w st dim = .ok r) ↔ (∃ c, get dim st.coords = some c ∧ c.idx.length = 1) ∧ 2 ≤ st.dims.length := by
  unfold squeeze
  constructor
  · rintro ⟨r, h⟩
    split at h
    · cases h
    · rename_i c hc
      split at h
      · cases h
      · rename_i h1
        split at h
        · cases h
        · rename_i h2
          exact ⟨⟨c, hc, by omega⟩, by omega⟩
  · rintro ⟨⟨c, hc, h1⟩, h2⟩
    rw [hc]
    dsimp only
    rw [if_neg (by omega), if_neg (by omega)]
    exact ⟨_, rfl⟩

/-- An integer for each dimension is refused: there is no object without dimensions. -/
theorem all_integers (w : World V) (st : Stat) (is : List Int) (hd : is.length = st.dims.length) (h0 : is ≠ []) :
    getItem w st (is.map Key.int) = .error .indexError := by
  have hi : ∀ (l : List Int) (sh : List Nat), ∃ ind, indicesOf sh (l.map Key.int) = .ok ind := by
    intro l
    induction l with
    | nil => intro sh; cases sh <;> exact ⟨_, rfl⟩
    | cons i l ih =>
      intro sh
      cases sh with
      | nil => exact ⟨_, rfl⟩
      | cons n sh =>
        obtain ⟨ind, h⟩ := ih sh
        refine ⟨[(if i < 0 then i + n else i).toNat] :: ind, ?_⟩
        simp only [List.map_cons, indicesOf, Key.indices, h, Except.map]
  obtain ⟨ind, h⟩ := hi is st.shape
  have hf : ((is.map Key.int).filter Key.isInt).length = st.dims.length := by
    rw [← hd, List.filter_eq_self.mpr, List.length_map]
    intro k hk
    obtain ⟨i, _, rfl⟩ := List.mem_map.mp hk
    rfl
  unfold getItem
  rw [h]
  simp only
  rw [if_neg (by simpa using h0), if_neg (by rw [List.length_map, hd]; exact lt_irrefl _), if_pos hf]

end NBK.StatObj
