import Verif.StatObj.Lemmas
set_option linter.unusedSimpArgs false
/-!
# C123: the new objects are well formed and the old ones are left alone
-/
namespace NBK.StatObj
open NBK.PySlice
variable {V : Type} [Num V]

/-- The result of an operation that makes a new object. -/
structure Made (w w' : World V) (st' : Stat) : Prop where
  ext : Ext w w'
  stats : w'.stats = w.stats
  wf : Wf w' st'

theorem edgeIdx_length (l : List Nat) : (edgeIdx l).length = l.length + 1 := by
  unfold edgeIdx
  cases h : l.getLast? with
  | none => simp [List.getLast?_eq_none_iff.mp h]
  | some k => simp

theorem edgeIdx_lt (l : List Nat) (n : Nat) (h : ∀ k ∈ l, k < n) : ∀ k ∈ edgeIdx l, k < n + 1 := by
  intro k hk
  unfold edgeIdx at hk
  cases hl : l.getLast? with
  | none => rw [hl] at hk; simp at hk; omega
  | some m =>
    rw [hl] at hk
    have hm := h m (List.mem_of_getLast? hl)
    simp at hk
    rcases hk with hk | rfl
    · have := h k hk; omega
    · omega

theorem mids_length (e : List V) : (mids e).length = e.length - 1 := by simp [mids]

theorem shape_eq (st : Stat) : st.shape = st.coords.map fun p => p.2.idx.length := rfl

theorem Wf.shape_length {w : World V} {st : Stat} (h : Wf w st) : st.shape.length = st.dims.length := by
  rw [← h.ckeys, shape_eq]
  simp

theorem Wf.edges_length {w : World V} {st : Stat} (h : Wf w st) : st.edges.length = st.dims.length := by
  rw [← h.ekeys]
  simp

/-- `__finalize__`. -/
theorem finalize_made (w : World V) (st : Stat) (h : Wf w st) (data : DArr) (mask : Arr) (ind : List (List Nat)) (hd : data.In w.cells)
    (hm : mask.In w.bits) (hl : ind.length = st.dims.length) (hds : data.idx.length = (ind.map List.length).prod)
    (hms : mask.idx.length = (ind.map List.length).prod) :
    Made w (finalize w st data mask ind).1 (finalize w st data mask ind).2 ∧ (finalize w st data mask ind).2.shape = ind.map List.length := by
  have hel := h.edges_length
  generalize hes : ((st.edges.zip ind).map fun p => (p.1.1, pick Num.zero (p.1.2.vals Num.zero w.nums) (edgeIdx p.2))) = es
  generalize hcs : (es.map fun p => (p.1, mids p.2)) = cs
  have hf : finalize w st data mask ind = ({ w with nums := w.nums ++ es.map Prod.snd ++ cs.map Prod.snd },
      { st with
        edges := place w.nums.length es
        coords := place (w.nums.length + es.length) cs
        data := data
        mask := mask }) := by
    unfold finalize
    dsimp only
    rw [hes, hcs]
  have hek : es.map Prod.fst = st.dims := by
    rw [← hes, List.map_map, ← h.ekeys]
    have : (Prod.fst ∘ fun (p : (String × Arr) × List Nat) => (p.1.1, pick Num.zero (p.1.2.vals Num.zero w.nums) (edgeIdx p.2))) =
        Prod.fst ∘ Prod.fst := by funext p; rfl
    rw [this, ← List.map_map, List.map_fst_zip (by omega)]
  have helen : es.map (fun p => p.2.length) = ind.map fun l => l.length + 1 := by
    rw [← hes, List.map_map]
    have : ((fun (p : String × List V) => p.2.length) ∘ fun (p : (String × Arr) × List Nat) =>
        (p.1.1, pick Num.zero (p.1.2.vals Num.zero w.nums) (edgeIdx p.2))) = (fun l => l.length + 1) ∘ Prod.snd := by
      funext p
      simp [pick_length, edgeIdx_length]
    rw [this, ← List.map_map, List.map_snd_zip (by omega)]
  have hck : cs.map Prod.fst = st.dims := by
    rw [← hcs, List.map_map, ← hek]
    rfl
  have hclen : cs.map (fun p => p.2.length) = ind.map List.length := by
    rw [← hcs, List.map_map]
    have : ((fun (p : String × List V) => p.2.length) ∘ fun (p : String × List V) => (p.1, mids p.2)) =
        (fun n => n - 1) ∘ fun (p : String × List V) => p.2.length := by
      funext p
      simp [mids_length]
    rw [this, ← List.map_map, helen, List.map_map]
    apply List.map_congr_left
    intro l _
    simp
  have hsh : (place (w.nums.length + es.length) cs).map (fun p => p.2.idx.length) = ind.map List.length := by
    rw [place_lengths, hclen]
  rw [hf]
  refine ⟨⟨⟨⟨_, by simp only [List.append_assoc]; rfl⟩, List.prefix_rfl, List.prefix_rfl, List.prefix_rfl, List.prefix_rfl⟩, rfl, ?_⟩, hsh⟩
  exact {
    dims := h.dims
    ekeys := by dsimp only; rw [place_keys, hek]
    ckeys := by dsimp only; rw [place_keys, hck]
    edges := fun p hp => place_in w.nums _ es p hp
    coords := fun p hp => by
      have := place_in (w.nums ++ es.map Prod.snd) [] cs p (by simpa using hp)
      simpa using this
    sizes := by
      dsimp only
      rw [place_lengths, helen]
      have : (fun (p : String × Arr) => p.2.idx.length + 1) = (fun n => n + 1) ∘ fun p => p.2.idx.length := by funext p; rfl
      rw [this, ← List.map_map, hsh, List.map_map]
      rfl
    data := hd
    mask := hm
    dsize := by rw [Stat.size, Stat.shape]; dsimp only; rw [hsh, hds]
    msize := by rw [Stat.size, Stat.shape]; dsimp only; rw [hsh, hms]
    attrs := h.attrs
    fsum := h.fsum }

/-- A fresh structured array. -/
theorem fresh_data (w : World V) (fields : List (String × Nat)) (width : Nat) (rows : List (List V)) (hw : ∀ r ∈ rows, r.length = width)
    (hs : ∀ p ∈ fields, p.2 < width) (hn : (fields.map Prod.fst).Nodup) (hp : (fields.map Prod.snd).Nodup) (n : Nat) (h : n = rows.length) :
    (DArr.mk w.cells.length (List.range n) fields width).In (w.cells ++ [rows]) := by
  subst h
  refine ⟨by simp, fun k hk => ?_, ?_, hs, hn, hp⟩
  · dsimp only
    rw [getD_append_self]
    exact List.mem_range.mp hk
  · dsimp only
    rw [getD_append_self]
    exact hw

theorem fresh_arr {α : Type} (mem : List (List α)) (l : List α) (n : Nat) (h : n = l.length) : (Arr.mk mem.length (List.range n)).In (mem ++ [l]) := by
  subst h
  refine ⟨by simp, fun k hk => ?_⟩
  dsimp only
  rw [getD_append_self]
  exact List.mem_range.mp hk

theorem copy_made (w : World V) (st : Stat) (h : Wf w st) : Made w (copy w st).1 (copy w st).2 := by
  refine ⟨⟨List.prefix_rfl, ⟨_, rfl⟩, ⟨_, rfl⟩, ⟨_, rfl⟩, List.prefix_rfl⟩, rfl, ?_⟩
  exact {
    dims := h.dims
    ekeys := h.ekeys
    ckeys := h.ckeys
    edges := h.edges
    coords := h.coords
    sizes := h.sizes
    data := fresh_data w _ _ _ (rows_width h.data) h.data.slots h.data.names h.data.places _ (rows_length _ _).symm
    mask := fresh_arr _ _ _ (vals_length _ _ _).symm
    dsize := (List.length_range).trans h.dsize
    msize := (List.length_range).trans h.msize
    attrs := h.attrs
    fsum := by simp [copy] }

theorem get_mem {α : Type} (k : String) (d : List (String × α)) (v : α) (h : get k d = some v) : (k, v) ∈ d := by
  induction d with
  | nil => cases h
  | cons p d ih =>
    unfold get at h
    by_cases hp : p.1 = k
    · rw [if_pos hp] at h
      injection h with h
      subst h
      subst hp
      exact List.mem_cons_self
    · rw [if_neg hp] at h
      exact List.mem_cons_of_mem _ (ih h)

theorem get_some {α : Type} (k : String) (d : List (String × α)) (h : k ∈ d.map Prod.fst) : ∃ v, get k d = some v := by
  induction d with
  | nil => cases h
  | cons p d ih =>
    unfold get
    by_cases hp : p.1 = k
    · exact ⟨p.2, by rw [if_pos hp]⟩
    · rw [if_neg hp]
      rw [List.map_cons, List.mem_cons] at h
      exact ih (h.resolve_left (Ne.symm hp))

theorem del_keys {α : Type} (k : String) (d : List (String × α)) : (del k d).map Prod.fst = (d.map Prod.fst).filter fun x => x ≠ k := by
  unfold del
  induction d with
  | nil => rfl
  | cons p d ih =>
    by_cases hp : p.1 = k
    · simp [hp] at ih ⊢; exact ih
    · simp [hp] at ih ⊢; exact ih

theorem del_prod (k : String) (d : List (String × Arr)) (hn : (d.map Prod.fst).Nodup) (a : Arr) (h : (k, a) ∈ d) (ha : a.idx.length = 1) :
    ((del k d).map fun p => p.2.idx.length).prod = (d.map fun p => p.2.idx.length).prod := by
  induction d with
  | nil => cases h
  | cons p d ih =>
    rw [List.map_cons, List.nodup_cons] at hn
    rcases List.mem_cons.mp h with rfl | h
    · have : del k d = d := by
        unfold del
        rw [List.filter_eq_self]
        intro q hq
        have : q.1 ≠ k := fun hk => hn.1 (List.mem_map.mpr ⟨q, hq, hk⟩)
        simpa using this
      unfold del at this ⊢
      simp only [ne_eq, not_true_eq_false, decide_false, Bool.false_eq_true, not_false_eq_true, List.filter_cons_of_neg, List.map_cons, List.prod_cons, ha, one_mul]
      simp only [ne_eq] at this
      rw [this]
    · have hp : p.1 ≠ k := fun hk => hn.1 (List.mem_map.mpr ⟨(k, a), h, hk.symm⟩)
      have := ih hn.2 h
      unfold del at this ⊢
      rw [List.filter_cons_of_pos (by simpa using hp), List.map_cons, List.map_cons, List.prod_cons, List.prod_cons, this]

theorem squeeze_made (w w' : World V) (st st' : Stat) (dim : String) (h : Wf w st) (hs : squeeze w st dim = .ok (w', st')) :
    Made w w' st' ∧ w' = (copy w st).1 ∧ st'.data = (copy w st).2.data ∧ st'.mask = (copy w st).2.mask ∧ st'.fsum = (copy w st).2.fsum ∧
      st'.dims = st.dims.filter (fun d => d ≠ dim) ∧ st'.edges = del dim st.edges ∧ st'.coords = del dim st.coords ∧ st'.attrs = st.attrs := by
  unfold squeeze at hs
  cases hc : get dim st.coords with
  | none => rw [hc] at hs; cases hs
  | some c =>
    rw [hc] at hs
    dsimp only at hs
    split at hs
    · cases hs
    rename_i h1
    split at hs
    · cases hs
    injection hs with hs
    injection hs with e1 e2
    subst e1
    subst e2
    have m := copy_made w st h
    refine ⟨⟨m.ext, m.stats, ?_⟩, rfl, rfl, rfl, rfl, rfl, rfl, rfl, rfl⟩
    have hmem := get_mem _ _ _ hc
    have hlen : c.idx.length = 1 := by
      by_contra hx
      exact h1 hx
    have hprod := del_prod dim st.coords (by rw [h.ckeys]; exact h.dims) c hmem hlen
    exact {
      dims := h.dims.filter _
      ekeys := by dsimp only; rw [del_keys, h.ekeys]
      ckeys := by dsimp only; rw [del_keys, h.ckeys]
      edges := fun p hp => h.edges p (List.mem_of_mem_filter hp)
      coords := fun p hp => h.coords p (List.mem_of_mem_filter hp)
      sizes := by
        dsimp only
        have key : ∀ (a b : List (String × Arr)), a.map Prod.fst = b.map Prod.fst → (a.map fun p => p.2.idx.length) = (b.map fun p => p.2.idx.length + 1) →
            ((del dim a).map fun p => p.2.idx.length) = ((del dim b).map fun p => p.2.idx.length + 1) := by
          intro a
          induction a with
          | nil => intro b hb _; cases b with | nil => rfl | cons _ _ => cases hb
          | cons p a ih =>
            intro b hb hl
            cases b with
            | nil => cases hb
            | cons q b =>
              rw [List.map_cons, List.map_cons, List.cons.injEq] at hb hl
              have := ih b hb.2 hl.2
              unfold del at this ⊢
              by_cases hp : p.1 = dim
              · rw [List.filter_cons_of_neg (by simpa using hp), List.filter_cons_of_neg (by rw [← hb.1]; simpa using hp), this]
              · rw [List.filter_cons_of_pos (by simpa using hp), List.filter_cons_of_pos (by rw [← hb.1]; simpa using hp), List.map_cons, List.map_cons,
                  this, hl.1]
        exact key _ _ (by rw [h.ekeys, h.ckeys]) h.sizes
      data := m.wf.data
      mask := m.wf.mask
      dsize := by
        rw [Stat.size, Stat.shape]
        dsimp only
        rw [hprod]
        exact m.wf.dsize
      msize := by
        rw [Stat.size, Stat.shape]
        dsimp only
        rw [hprod]
        exact m.wf.msize
      attrs := h.attrs
      fsum := m.wf.fsum }

theorem ind_valid (sh : List Nat) (ind : List (List Nat)) (h : (List.zipWith (fun n l => l.any fun k => decide (n ≤ k)) sh ind).any id = false) :
    ∀ p ∈ sh.zip ind, ∀ k ∈ p.2, k < p.1 := by
  induction sh generalizing ind with
  | nil => intro p hp; simp at hp
  | cons n sh ih =>
    cases ind with
    | nil => intro p hp; simp at hp
    | cons l ls =>
      simp only [List.zipWith_cons_cons, List.any_cons, Bool.or_eq_false_iff, id] at h
      intro p hp
      rw [List.zip_cons_cons, List.mem_cons] at hp
      rcases hp with rfl | hp
      · intro k hk
        have := List.any_eq_false.mp h.1 k hk
        simpa using this
      · exact ih ls h.2 p hp

/-- The arrays of a selection that copies. -/
theorem picked_made (w : World V) (st : Stat) (h : Wf w st) (ind : List (List Nat)) (hl : ind.length = st.dims.length)
    (hv : ∀ p ∈ st.shape.zip ind, ∀ k ∈ p.2, k < p.1) :
    Ext w { w with cells := w.cells ++ [pick [] (st.data.rows w.cells) (offsets st.shape ind)], bits := w.bits ++ [pick false (st.mask.vals false w.bits) (offsets st.shape ind)] } ∧
    (DArr.mk w.cells.length (List.range (offsets st.shape ind).length) st.data.fields st.data.width).In
      (w.cells ++ [pick [] (st.data.rows w.cells) (offsets st.shape ind)]) ∧
    (Arr.mk w.bits.length (List.range (offsets st.shape ind).length)).In (w.bits ++ [pick false (st.mask.vals false w.bits) (offsets st.shape ind)]) := by
  refine ⟨⟨List.prefix_rfl, ⟨_, rfl⟩, ⟨_, rfl⟩, List.prefix_rfl, List.prefix_rfl⟩, ?_, fresh_arr _ _ _ (pick_length _ _ _).symm⟩
  refine fresh_data w _ _ _ ?_ h.data.slots h.data.names h.data.places _ (pick_length _ _ _).symm
  intro r hr
  obtain ⟨k, hk, rfl⟩ := List.mem_map.mp hr
  have hlt : k < (st.data.rows w.cells).length := by
    rw [rows_length, h.dsize, Stat.size]
    exact offsets_lt _ _ (by rw [hl, h.shape_length]) hv k hk
  rw [List.getD_eq_getElem?_getD, List.getElem?_eq_getElem hlt]
  exact rows_width h.data _ (List.getElem_mem hlt)

theorem take_made (w w' : World V) (st st' : Stat) (ind : List (List Nat)) (h : Wf w st) (hs : take w st ind = .ok (w', st')) :
    Made w w' st' ∧ st'.data.buf = w.cells.length ∧ st'.mask.buf = w.bits.length ∧ st'.fsum = st.fsum := by
  unfold take at hs
  split at hs
  · cases hs
  rename_i hc
  rw [not_or, Bool.not_eq_true] at hc
  dsimp only at hs
  have hl : ind.length = st.dims.length := by
    by_contra hx
    exact hc.1 hx
  obtain ⟨e, hd, hm⟩ := picked_made w st h ind hl (ind_valid _ _ hc.2)
  have hol := offsets_length st.shape ind (by rw [hl, h.shape_length])
  have m := (finalize_made _ st (h.ext e) _ _ ind hd hm hl (by simp [hol]) (by simp [hol])).1
  injection hs with hs
  rw [hs] at m
  refine ⟨⟨e.trans m.ext, m.stats, m.wf⟩, ?_⟩
  have e2 : st' = _ := (congrArg Prod.snd hs).symm
  rw [e2]
  exact ⟨rfl, rfl, rfl⟩

theorem names_fields (d : List (String × Nat)) (names : List String) (h : ∀ n ∈ names, n ∈ d.map Prod.fst) :
    (names.filterMap fun n => (get n d).map fun s => (n, s)).map Prod.fst = names ∧
    ∀ p ∈ names.filterMap (fun n => (get n d).map fun s => (n, s)), p ∈ d := by
  constructor
  · induction names with
    | nil => rfl
    | cons n names ih =>
      obtain ⟨v, hv⟩ := get_some n d (h n (by simp))
      rw [List.filterMap_cons, hv]
      simp only [Option.map_some, List.map_cons]
      rw [ih fun x hx => h x (by simp [hx])]
  · intro p hp
    obtain ⟨n, _, hn⟩ := List.mem_filterMap.mp hp
    cases hg : get n d with
    | none => rw [hg] at hn; cases hn
    | some v =>
      rw [hg] at hn
      injection hn with hn
      subst hn
      exact get_mem _ _ _ hg

theorem places_nodup (d : List (String × Nat)) (names : List String) (hn : names.Nodup) (hd : (d.map Prod.snd).Nodup) :
    ((names.filterMap fun n => (get n d).map fun s => (n, s)).map Prod.snd).Nodup := by
  have inj : ∀ a b s, get a d = some s → get b d = some s → a = b := by
    intro a b s ha hb
    have h1 := get_mem _ _ _ ha
    have h2 := get_mem _ _ _ hb
    have := List.inj_on_of_nodup_map hd h1 h2 rfl
    exact congrArg Prod.fst this
  induction names with
  | nil => exact List.nodup_nil
  | cons n names ih =>
    rw [List.nodup_cons] at hn
    rw [List.filterMap_cons]
    cases hg : get n d with
    | none => exact ih hn.2
    | some s =>
      simp only [Option.map_some, List.map_cons]
      rw [List.nodup_cons]
      refine ⟨?_, ih hn.2⟩
      intro hx
      obtain ⟨p, hp, hps⟩ := List.mem_map.mp hx
      obtain ⟨m, hm, hmp⟩ := List.mem_filterMap.mp hp
      cases hgm : get m d with
      | none => rw [hgm] at hmp; cases hmp
      | some t =>
        rw [hgm] at hmp
        injection hmp with hmp
        subst hmp
        have : t = s := hps
        subst this
        exact hn.1 (inj n m t hg hgm ▸ hm)

theorem getNames_made (w w' : World V) (st st' : Stat) (names : List String) (h : Wf w st) (hs : getNames w st names = .ok (w', st')) :
    Made w w' st' ∧ st'.data.buf = st.data.buf ∧ st'.data.idx = st.data.idx ∧ st'.variables = names ∧ (∀ p ∈ st'.data.fields, p ∈ st.data.fields) ∧
      st'.mask.buf = w.bits.length ∧ st'.fsum = st.fsum ∧ w'.cells = w.cells := by
  unfold getNames at hs
  split at hs
  · cases hs
  rename_i hn
  split at hs
  · cases hs
  split at hs
  · cases hs
  rename_i hnd
  rw [not_not] at hnd
  dsimp only at hs
  have hin : ∀ n ∈ names, n ∈ st.data.fields.map Prod.fst := by
    intro n hx
    by_contra hc
    exact hn (List.any_eq_true.mpr ⟨n, hx, by rw [Bool.not_eq_true', decide_eq_false_iff_not]; exact hc⟩)
  obtain ⟨f1, f2⟩ := names_fields st.data.fields names hin
  have e : Ext w { w with bits := w.bits ++ [st.mask.vals false w.bits] } :=
    ⟨List.prefix_rfl, List.prefix_rfl, ⟨_, rfl⟩, List.prefix_rfl, List.prefix_rfl⟩
  have hsz : ((st.shape.map List.range).map List.length).prod = st.size := by
    rw [List.map_map, Stat.size]
    congr 1
    conv => rhs; rw [← List.map_id st.shape]
    apply List.map_congr_left
    intro n _
    simp
  have m := (finalize_made _ st (h.ext e) { st.data with fields := names.filterMap fun n => (get n st.data.fields).map fun s => (n, s) }
    ⟨w.bits.length, List.range st.mask.idx.length⟩ (st.shape.map List.range)
    ⟨h.data.buf, h.data.idx, h.data.width, fun p hp => h.data.slots p (f2 p hp), by dsimp only; rw [f1]; exact hnd, places_nodup _ _ hnd h.data.places⟩
    (fresh_arr _ _ _ (vals_length _ _ _).symm) (by rw [List.length_map, h.shape_length]) (by rw [hsz]; exact h.dsize)
    (by rw [hsz]; simpa using h.msize)).1
  injection hs with hs
  rw [hs] at m
  refine ⟨⟨e.trans m.ext, m.stats, m.wf⟩, ?_⟩
  have e2 : st' = _ := (congrArg Prod.snd hs).symm
  have e1 : w' = _ := (congrArg Prod.fst hs).symm
  rw [e2, e1]
  exact ⟨rfl, rfl, f1, f2, rfl, rfl, rfl⟩

end NBK.StatObj
