import Verif.FileObj.Props

/-!
# C113: file objects as arrays, second axis, dask arrays
-/
set_option linter.unusedSimpArgs false
namespace NBK.FileObj
open NBK.FileIO NBK.PySlice

theorem getD_lt {α : Type} (L : List α) (i : Nat) (d : α) (h : i < L.length) : L.getD i d = L[i] := by
  simp [List.getD, h]

/-- A filter that keeps everything. -/
theorem filterMap_all {α β : Type} (f : α → Option β) (l : List α) (r : List β) (h : l.map f = r.map some) :
    l.filterMap f = r := by
  induction l generalizing r with
  | nil => cases r with
    | nil => rfl
    | cons _ _ => simp at h
  | cons a l ih =>
    cases r with
    | nil => simp at h
    | cons b r =>
      simp only [List.map_cons, List.cons.injEq] at h
      rw [List.filterMap_cons, h.1, ih r h.2]

theorem range_getElem? {α : Type} (r : List α) : (List.range r.length).map (fun j => r[j]?) = r.map some := by
  apply List.ext_getElem?
  intro k
  by_cases hk : k < r.length
  · simp [hk]
  · simp [hk, List.getElem?_eq_none (not_lt.mp hk)]

theorem slice_entries {α : Type} (r : List α) (m a b : Nat) (h : r.length = m) :
    (((List.range m).take b).drop a).filterMap (fun j => r[j]?) = (r.take b).drop a := by
  apply filterMap_all
  rw [List.map_drop, List.map_take, ← h, range_getElem?, ← List.map_take, ← List.map_drop]

/-- The fields of distinct names of a table, in the order of the names. -/
theorem field_at {σ : Type} (T : Table σ) (hT : T.WF) (fs : List Field) (hfs : ∀ f ∈ fs, f ∈ T.fields) (i : Nat) :
    ∀ (x : List σ), x ∈ (fs.map fun f => (T.data f.name).getD i []) → i < T.n → ∃ f ∈ fs, x.length = f.shape.prod := by
  intro x hx hi
  obtain ⟨f, hf, rfl⟩ := List.mem_map.mp hx
  refine ⟨f, hf, hT.item f (hfs f hf) _ ?_⟩
  have hl := hT.len f (hfs f hf)
  rw [getD_lt _ _ _ (by omega)]
  exact List.getElem_mem _

/-- Rows of `n` scalars. -/
theorem flat_length {σ : Type} (L : List (List σ)) (h : ∀ x ∈ L, x.length = 1) : L.flatten.length = L.length := by
  induction L with
  | nil => rfl
  | cons x L ih =>
    rw [List.flatten_cons, List.length_append, ih (fun y hy => h y (by simp [hy])), h x (by simp), List.length_cons]; omega

theorem flatten_flatten_map {σ : Type} (r : List (List (List σ))) : r.flatten.flatten = (r.map List.flatten).flatten := by
  induction r with
  | nil => rfl
  | cons x r ih => simp [ih]

theorem picks_subset {α : Type} (L r : List α) (i : Index) (h : Picks L r i) : ∀ x ∈ r, x ∈ L := by
  cases i with
  | emptyList => exact h.elim
  | slice s =>
    intro x hx
    obtain ⟨_, hp⟩ := h
    unfold pySlice at hp
    cases hi : indices L.length s with
    | none => rw [hi] at hp; cases hp
    | some t =>
      rw [hi] at hp
      simp only [Option.map_some, Option.some.injEq] at hp
      subst hp
      obtain ⟨p, _, hp⟩ := List.mem_filterMap.mp hx
      split at hp
      · cases hp
      · exact List.mem_of_getElem? hp
  | int j =>
    obtain ⟨_, _, x, rfl, hx⟩ := h
    intro y hy
    rw [List.mem_singleton.mp hy]
    exact List.mem_of_getElem? hx
  | mask m =>
    obtain ⟨_, _, rfl⟩ := h
    intro x hx
    obtain ⟨⟨a, b⟩, hp, hq⟩ := List.mem_filterMap.mp hx
    split at hq
    · injection hq with hq
      subst hq
      exact (List.of_mem_zip hp).1
    · cases hq
  | ints b l =>
    obtain ⟨_, _, _, h4⟩ := h
    intro x hx
    have : some x ∈ r.map some := List.mem_map_of_mem hx
    rw [h4] at this
    obtain ⟨j, _, hj⟩ := List.mem_map.mp this
    exact List.mem_of_getElem? hj

/-- The array made from picked rows of the table. -/
theorem viewRows_arr2 {σ : Type} (v : Obj σ) (b : Base) (m : Nat) (rest : List Nat) (keys : List String)
    (hd : v.dtype = .plain b) (hsub : v.sub = m :: rest) (hm : 0 < m) (r : List (List (List σ)))
    (hr : ∀ x ∈ r, x.flatten.length = m) : viewRows v keys r = .ok (.arr2 m (r.map List.flatten)) := by
  have hr' : ∀ x ∈ r.map List.flatten, x.length = m := by simpa using hr
  unfold viewRows
  rw [hd]
  simp only [DType.fields, hsub]
  rw [flatten_flatten_map]
  unfold reshape2
  rw [if_neg]
  · have := items_flatten m hm (r.map List.flatten) hr' []
    rw [List.append_nil] at this
    rw [this]
    have h0 : items m ([] : List σ) = [] := by rw [items, dif_neg (by simp; omega)]
    rw [h0, List.append_nil]
  · rw [flatten_length m _ hr']
    simp; omega

/-- The object that `asarray` returns. -/
structure IsArray {σ : Type} (v : Obj σ) (T : Table σ) (keys : List String) (sub : List Nat) : Prop where
  owner : ∃ rd, memown v = .ok rd ∧ Good rd T
  cols : columns v = .ok keys
  size : v.size = T.n
  plain : ∃ b, v.dtype = .plain b
  sub : v.sub = sub

/-- `asarray` of a selection: it succeeds for one column, or for several scalar columns of one type. -/
theorem asarray_spec {σ : Type} (o : Obj σ) (T : Table σ) (ho : IsFile o T) (hT : T.WF) (s : List String) (hs : s ≠ [])
    (hn : s.Nodup) (hh : T.Has s) :
    ∃ v, select o s = .ok v ∧
      ((∃ c f, s = [c] ∧ f ∈ T.fields ∧ f.name = c) →
        ∃ c f x, s = [c] ∧ f ∈ T.fields ∧ f.name = c ∧ asarray v = .ok x ∧ IsArray x T s f.shape) ∧
      (2 ≤ s.length → (∀ f ∈ T.fields, f.name ∈ s → f.shape = []) →
        (∀ f ∈ T.fields, ∀ g ∈ T.fields, f.name ∈ s → g.name ∈ s → f.base = g.base) →
        ∃ x, asarray v = .ok x ∧ IsArray x T s [s.length]) := by
  obtain ⟨v, fs, h1, h2, h3, h4, h5, h6, h7, rd, h8, h9⟩ := select_spec o T ho hT s hs hn hh
  have hown : ownerOf v = some rd := by
    unfold memown at h8
    unfold ownerOf
    cases hb : v.base with
    | some b => rw [hb] at h8; injection h8 with h8; rw [h8]
    | none =>
      rw [hb] at h8
      cases hw : v.own with
      | some r => rw [hw] at h8; injection h8 with h8; rw [h8]
      | none => rw [hw] at h8; cases h8
  refine ⟨v, h1, ?_, ?_⟩
  · rintro ⟨c, f, rfl, hf, hfc⟩
    obtain ⟨g, rfl⟩ : ∃ g, fs = [g] := by
      cases fs with
      | nil => simp at h6
      | cons g fs => cases fs with
        | nil => exact ⟨g, rfl⟩
        | cons _ _ => simp at h6
    have hgc : g.name = c := by simpa using h6
    have hg := h7 g (by simp)
    refine ⟨c, g, ⟨none, some rd, .plain g.base, T.n, some [c], g.shape⟩, rfl, hg, hgc, ?_,
      ⟨rd, rfl, h9⟩, rfl, rfl, ⟨_, rfl⟩, rfl⟩
    unfold asarray
    rw [h5]
    simp only [packed, DType.fields]
    rw [if_neg (by simp), if_neg (by simp), h2]
    simp [hown, h3, subShape]
  · intro hlen hsh hba
    have hl : fs.length = s.length := by rw [← h6]; simp
    obtain ⟨f, fs', rfl⟩ : ∃ f fs', fs = f :: fs' := by
      cases fs with
      | nil => simp at hl; omega
      | cons f fs' => exact ⟨f, fs', rfl⟩
    have hmem : ∀ g ∈ f :: fs', g.name ∈ s := by intro g hg; rw [← h6]; exact List.mem_map_of_mem hg
    refine ⟨⟨none, some rd, .plain f.base, T.n, some s, [s.length]⟩, ?_, ⟨rd, rfl, h9⟩, rfl, rfl, ⟨_, rfl⟩, rfl⟩
    unfold asarray
    rw [h5]
    simp only [packed, DType.fields]
    rw [if_neg, if_neg, h2]
    · have : fs' ≠ [] := by rintro rfl; simp at hl; omega
      simp [hown, h3, subShape, this, ← hl]
    · simp only [List.any_eq_true, decide_eq_true_eq, not_exists, not_and, not_not]
      intro g hg
      exact hba g (h7 g hg) f (h7 f (by simp)) (hmem g hg) (hmem f (by simp))
    · simp only [List.any_eq_true, not_and, not_exists]
      intro _ g hg
      simp [hsh g (h7 g hg) (hmem g hg)]

/-- An object with one axis of one scalar column: the items themselves. -/
theorem array1_rows {σ : Type} (v : Obj σ) (T : Table σ) (hT : T.WF) (f : Field) (hf : f ∈ T.fields) (hsh : f.shape = [])
    (hv : IsArray v T [f.name] []) (i : Index) (r : List σ) (hp : Picks (T.data f.name).flatten r i) :
    getitem v i [] = .ok (.arr1 r) := by
  obtain ⟨⟨rd, hm, hg⟩, hc, hsz, ⟨b, hd⟩, hsub⟩ := hv
  have hone : ∀ x ∈ T.data f.name, x.length = 1 := by
    intro x hx
    rw [hT.item f hf x hx, hsh]; rfl
  have hsingle : T.data f.name = (T.data f.name).flatten.map fun x => [x] := by
    generalize T.data f.name = L at hone
    induction L with
    | nil => rfl
    | cons x L ih =>
      obtain ⟨y, rfl⟩ := List.length_eq_one_iff.mp (hone x (by simp))
      rw [List.flatten_cons, List.map_append, ← ih (fun z hz => hone z (by simp [hz]))]; rfl
  have hrows : T.rows [f.name] = (T.data f.name).flatten.map fun x => [[x]] := by
    rw [rows_one T f.name (hT.len f hf)]
    conv_lhs => rw [hsingle]
    rw [List.map_map]; rfl
  have hpick : Picks (T.rows [f.name]) (r.map fun x => [[x]]) i := by
    rw [hrows]
    -- from the picked scalars to the picked rows
    generalize (T.data f.name).flatten = L at hp
    cases i with
    | emptyList => exact hp.elim
    | slice s =>
      obtain ⟨⟨a, b, c, hi, h⟩, hp⟩ := hp
      refine ⟨⟨a, b, c, by rw [List.length_map]; exact hi, h⟩, ?_⟩
      unfold pySlice at hp ⊢
      rw [List.length_map, hi]
      rw [hi] at hp
      simp only [Option.map_some, Option.some.injEq] at hp ⊢
      rw [rowsAt_map, hp]
    | int j =>
      obtain ⟨h1, h2, x, hx, hy⟩ := hp
      refine ⟨by simpa using h1, by simpa using h2, [[x]], by rw [hx]; rfl, ?_⟩
      rw [List.length_map, List.getElem?_map, hy]; rfl
    | mask m =>
      obtain ⟨h1, h2, h3⟩ := hp
      exact ⟨by simpa using h1, h2, by rw [zip_mask_map, h3]⟩
    | ints b l =>
      obtain ⟨h1, h2, h3, h4⟩ := hp
      refine ⟨h1, h2, by simpa using h3, ?_⟩
      rw [List.length_map, List.map_map]
      have : (some ∘ fun x : σ => [[x]]) = (fun o : Option σ => o.map fun x => [[x]]) ∘ some := by funext x; rfl
      rw [this, ← List.map_map, h4, List.map_map]
      congr 1
      funext x
      simp [List.getElem?_map]
  rw [(getitem_view v T rd [f.name] hm hg hc hsz (by simp) (by simp) (by intro k hk; exact ⟨f, hf, (List.mem_singleton.mp hk).symm⟩) i _
    hpick).1]
  unfold viewRows
  rw [hd]
  simp only [DType.fields, hsub]
  congr 2
  clear hpick hp
  induction r with
  | nil => rfl
  | cons x r ih => simp [ih]

/-- An object with two axes: the rows of the columns side by side. -/
theorem array2_rows {σ : Type} (v : Obj σ) (T : Table σ) (s : List String) (m : Nat) (hs : s ≠ []) (hn : s.Nodup)
    (hh : T.Has s) (hv : IsArray v T s [m]) (hm : 0 < m) (hrow : ∀ x ∈ T.array s, x.length = m)
    (i : Index) (r : List (List σ)) (hp : Picks (T.array s) r i) :
    getitem v i [] = .ok (.arr2 m r) ∧ ∀ j, getitem v i [j] = applySub j (.arr2 m r) := by
  obtain ⟨⟨rd, hmo, hg⟩, hc, hsz, ⟨b, hd⟩, hsub⟩ := hv
  rw [array_eq] at hp
  obtain ⟨q, hq, rfl⟩ := picks_map _ _ _ _ hp
  have hvr : viewRows v s q = .ok (.arr2 m (q.map List.flatten)) := by
    apply viewRows_arr2 v b m [] s hd hsub hm q
    intro x hx
    apply hrow
    rw [array_eq]
    exact List.mem_map_of_mem (picks_subset _ _ _ hq x hx)
  obtain ⟨g1, g2⟩ := getitem_view v T rd s hmo hg hc hsz hs hn hh i q hq
  refine ⟨by rw [g1, hvr], ?_⟩
  intro j
  rw [g2 (by rw [hsub]; simp) j, hvr]; rfl

theorem array_row_length {σ : Type} (T : Table σ) (hT : T.WF) (s : List String) (hh : T.Has s)
    (hsc : ∀ f ∈ T.fields, f.name ∈ s → f.shape = []) : ∀ x ∈ T.array s, x.length = s.length := by
  intro x hx
  unfold Table.array at hx
  obtain ⟨i, hi, rfl⟩ := List.mem_map.mp hx
  rw [flat_length]
  · simp
  · intro y hy
    obtain ⟨k, hk, rfl⟩ := List.mem_map.mp hy
    obtain ⟨f, hf, rfl⟩ := hh k hk
    have hl := hT.len f hf
    rw [List.mem_range] at hi
    rw [getD_lt _ _ _ (by omega), hT.item f hf _ (List.getElem_mem _), hsc f hf hk]; rfl

theorem has_one {σ : Type} (T : Table σ) (f : Field) (hf : f ∈ T.fields) : T.Has [f.name] := by
  intro k hk
  exact ⟨f, hf, (List.mem_singleton.mp hk).symm⟩

/-- C113, one column: `file[name]` of a scalar column is the array of its values; of a vector column the array of its vectors.
Both hold for every row index that is supported. -/
theorem column_rows {σ : Type} (o : Obj σ) (T : Table σ) (ho : IsFile o T) (hT : T.WF) (f : Field) (hf : f ∈ T.fields) :
    ∃ v, column o f.name = .ok v ∧ v.size = T.n ∧ v.sub = f.shape ∧
      (f.shape = [] → ∀ i r, Picks (T.data f.name).flatten r i → getitem v i [] = .ok (.arr1 r)) ∧
      (∀ m, f.shape = [m] → 0 < m → ∀ i r, Picks (T.data f.name) r i → getitem v i [] = .ok (.arr2 m r)) := by
  obtain ⟨w, h1, h2, _⟩ := asarray_spec o T ho hT [f.name] (by simp) (by simp) (has_one T f hf)
  obtain ⟨c, g, v, hc, hg, hgc, hv, hA⟩ := h2 ⟨f.name, f, rfl, hf, rfl⟩
  have hgf : g = f := by
    have : g.name = f.name := by rw [hgc]; simpa using hc.symm
    exact List.inj_on_of_nodup_map hT.nodup hg hf this
  subst hgf
  refine ⟨v, by unfold column; rw [h1]; exact hv, hA.size, hA.sub, ?_, ?_⟩
  · intro hsh i r hp
    rw [hsh] at hA
    exact array1_rows v T hT g hg hsh hA i r hp
  · intro m hsh hm i r hp
    rw [hsh] at hA
    rw [← array_one T g.name (hT.len g hg)] at hp
    refine (array2_rows v T [g.name] m (by simp) (by simp) (has_one T g hg) hA hm ?_ i r hp).1
    intro x hx
    rw [array_one T g.name (hT.len g hg)] at hx
    rw [hT.item g hg x hx, hsh]; simp

/-- C113, several scalar columns of one type: `file[names].asarray()` has one row for each row of the file with the values of
the columns in the order of the names, and `[i, j]` is column `j` of the picked rows, counted from the end for a negative `j`,
an IndexError if there is no such column. -/
theorem asarray_rows {σ : Type} (o : Obj σ) (T : Table σ) (ho : IsFile o T) (hT : T.WF) (s : List String) (hlen : 2 ≤ s.length)
    (hn : s.Nodup) (hh : T.Has s) (hsc : ∀ f ∈ T.fields, f.name ∈ s → f.shape = [])
    (hba : ∀ f ∈ T.fields, ∀ g ∈ T.fields, f.name ∈ s → g.name ∈ s → f.base = g.base) :
    ∃ v x, select o s = .ok v ∧ asarray v = .ok x ∧ columns x = .ok s ∧ x.size = T.n ∧ x.sub = [s.length] ∧
      ∀ i r, Picks (T.array s) r i →
        getitem x i [] = .ok (.arr2 s.length r) ∧
        (∀ (j : Nat), j < s.length →
          ∃ l, getitem x i [.int j] = .ok (.arr1 l) ∧ getitem x i [.int (j - s.length)] = .ok (.arr1 l) ∧ l.map some = r.map fun row => row[j]?) ∧
        ∀ (j : Int), j < -s.length ∨ s.length ≤ j → getitem x i [.int j] = .error .indexError := by
  have hs : s ≠ [] := by rintro rfl; simp at hlen
  obtain ⟨v, h1, _, h2⟩ := asarray_spec o T ho hT s hs hn hh
  obtain ⟨x, hx, hA⟩ := h2 hlen hsc hba
  refine ⟨v, x, h1, hx, hA.cols, hA.size, hA.sub, ?_⟩
  intro i r hp
  have hrow := array_row_length T hT s hh hsc
  obtain ⟨g1, g2⟩ := array2_rows x T s s.length hs hn hh hA (by omega) hrow i r hp
  refine ⟨g1, ?_, ?_⟩
  swap
  · intro j hj
    rw [g2]
    unfold applySub
    simp only
    by_cases hj0 : j < 0
    · rw [if_pos hj0, if_neg (by omega)]
    · rw [if_neg hj0, if_neg (by omega)]
  intro j hj
  rw [g2, g2]
  refine ⟨r.filterMap fun row => row[j]?, ?_, ?_, ?_⟩
  · unfold applySub
    simp only
    have hj0 : ¬ ((j : Int) < 0) := by omega
    simp only [hj0, if_false]
    rw [if_pos (by omega)]
    rfl
  · unfold applySub
    simp only
    rw [if_pos (by omega : (j : Int) - s.length < 0), if_pos (by omega), show ((j : Int) - s.length + s.length).toNat = j by omega]
  · have hr : ∀ row ∈ r, row.length = s.length := fun row h => hrow row (picks_subset _ _ _ hp row h)
    clear hp g1 g2
    induction r with
    | nil => rfl
    | cons a r ih =>
      have ha := hr a (by simp)
      rw [List.filterMap_cons, List.getElem?_eq_getElem (by omega : j < a.length)]
      simp only [List.map_cons]
      rw [ih (fun row h => hr row (by simp [h])), List.getElem?_eq_getElem (by omega : j < a.length)]

/-- Column `j` of the array is the `j`-th named column. -/
theorem array_entry {σ : Type} (T : Table σ) (hT : T.WF) (s : List String) (hh : T.Has s)
    (hsc : ∀ f ∈ T.fields, f.name ∈ s → f.shape = []) (j : Nat) (c : String) (hj : s[j]? = some c) :
    (T.array s).map (fun row => row[j]?) = (T.data c).flatten.map some := by
  have hc : c ∈ s := List.mem_of_getElem? hj
  obtain ⟨f, hf, hfc⟩ := hh c hc
  have hlen : (T.data c).length = T.n := by rw [← hfc]; exact hT.len f hf
  have hone : ∀ k ∈ s, ∀ i, i < T.n → ((T.data k).getD i []).length = 1 := by
    intro k hk i hi
    obtain ⟨g, hg, rfl⟩ := hh k hk
    have := hT.len g hg
    rw [getD_lt _ _ _ (by omega), hT.item g hg _ (List.getElem_mem _), hsc g hg hk]; rfl
  have key : ∀ i, i < T.n → ((s.map fun k => (T.data k).getD i []).flatten)[j]? = ((T.data c).getD i [])[0]? := by
    intro i hi
    clear hlen
    induction s generalizing j with
    | nil => simp at hj
    | cons k s ih =>
      obtain ⟨y, hy⟩ := List.length_eq_one_iff.mp (hone k (by simp) i hi)
      rw [List.map_cons, List.flatten_cons, hy]
      cases j with
      | zero =>
        simp only [List.getElem?_cons_zero, Option.some.injEq] at hj
        subst hj
        rw [hy]; rfl
      | succ j =>
        rw [List.getElem?_cons_succ] at hj
        have := ih (fun q hq => hh q (by simp [hq])) (fun g hg hgs => hsc g hg (by simp [hgs])) j hj
          (List.mem_of_getElem? hj) (fun q hq => hone q (by simp [hq]))
        simpa using this
  unfold Table.array
  rw [List.map_map]
  have e1 : (List.range T.n).map ((fun row => row[j]?) ∘ fun i => (s.map fun k => (T.data k).getD i []).flatten) =
      (List.range T.n).map fun i => ((T.data c).getD i [])[0]? := by
    apply List.map_congr_left
    intro i hi
    exact key i (List.mem_range.mp hi)
  rw [e1]
  rw [show ((List.range T.n).map fun i => ((T.data c).getD i [])[0]?) =
    ((List.range T.n).map fun i => (T.data c).getD i []).map (fun x => x[0]?) by rw [List.map_map]; rfl]
  rw [range_getD _ _ _ hlen]
  have hall : ∀ x ∈ T.data c, x.length = 1 := by
    intro x hx
    rw [← hfc] at hx
    rw [hT.item f hf x hx, hsc f hf (by rw [hfc]; exact hc)]; rfl
  generalize T.data c = L at hall
  clear e1 hlen key
  induction L with
  | nil => rfl
  | cons x L ih =>
    obtain ⟨y, rfl⟩ := List.length_eq_one_iff.mp (hall x (by simp))
    rw [List.map_cons, ih (fun z hz => hall z (by simp [hz]))]; rfl

/-- `asarray` refuses files without fields, several columns one of which is not scalar, and columns of different types; the
result has no columns to select. -/
theorem asarray_rejects {σ : Type} (o : Obj σ) :
    (o.dtype.fields = [] → asarray o = .error .valueError) ∧
    (2 ≤ o.dtype.fields.length → (∃ f ∈ o.dtype.fields, f.shape ≠ []) → asarray o = .error .valueError) ∧
    ((∃ f ∈ o.dtype.fields, ∃ g ∈ o.dtype.fields, f.base ≠ g.base) → asarray o = .error .valueError) ∧
    (∀ x, asarray o = .ok x → ∀ s, select x s = .error .indexError) := by
  unfold asarray
  cases hf : o.dtype.fields with
  | nil => simp
  | cons f fs =>
    refine ⟨by simp, ?_, ?_, ?_⟩
    · rintro hl ⟨g, hg, hgs⟩
      dsimp only
      rw [if_pos]
      refine ⟨by rintro rfl; simp at hl, ?_⟩
      rw [List.any_eq_true]
      exact ⟨g, hg, by simpa using hgs⟩
    · rintro ⟨g, hg, h, hh, hne⟩
      dsimp only
      by_cases h1 : fs ≠ [] ∧ (f :: fs).any (fun g => g.shape.length != 0) = true
      · rw [if_pos h1]
      · rw [if_neg h1, if_pos]
        rw [List.any_eq_true]
        by_cases hgf : g.base = f.base
        · exact ⟨h, hh, by simp; intro e; exact hne (by rw [hgf, e])⟩
        · exact ⟨g, hg, by simpa using hgf⟩
    · intro x hx s
      dsimp only at hx
      split at hx
      · cases hx
      · split at hx
        · cases hx
        · cases hc : columns o with
          | error e => rw [hc] at hx; cases hx
          | ok keys =>
            rw [hc] at hx
            injection hx with hx
            subst hx
            unfold select
            by_cases hs : s = []
            · rw [if_pos hs]
            · rw [if_neg hs, if_pos (by rfl)]

/-! ## dask arrays -/

/-- The chunks tile a list. -/
theorem chunks_tile {α : Type} (L : List α) (bs : Nat) (hbs : 0 < bs) :
    ((chunks L.length bs).map fun p => (L.take p.2).drop p.1).flatten = L ∧
    ∀ p ∈ chunks L.length bs, p.1 ≤ p.2 ∧ p.2 ≤ L.length := by
  unfold chunks
  by_cases h0 : L.length = 0
  · rw [if_pos h0]
    have : L = [] := List.length_eq_zero_iff.mp h0
    subst this
    simp
  · rw [if_neg h0]
    have key : ∀ K : Nat, (((List.range K).map fun (k : Nat) => (k * bs, min L.length ((k + 1) * bs))).map
        fun p => (L.take p.2).drop p.1).flatten = L.take (K * bs) := by
      intro K
      induction K with
      | zero => simp
      | succ K ih =>
        rw [List.range_succ, List.map_append, List.map_append, List.flatten_append, ih]
        simp only [List.map_cons, List.map_nil, List.flatten_cons, List.flatten_nil, List.append_nil]
        have e : L.take (min L.length ((K + 1) * bs)) = L.take ((K + 1) * bs) := by
          rw [← List.take_take, List.take_of_length_le (by simp)]
        rw [e]
        conv_rhs => rw [← List.take_append_drop (K * bs) (L.take ((K + 1) * bs))]
        rw [List.take_take, Nat.min_eq_left (Nat.mul_le_mul_right _ (by omega))]
    have hK : L.length ≤ (L.length + bs - 1) / bs * bs := by
      have h1 := Nat.div_add_mod (L.length + bs - 1) bs
      have h2 := Nat.mod_lt (L.length + bs - 1) hbs
      rw [Nat.mul_comm] at h1
      omega
    refine ⟨by rw [key, List.take_of_length_le hK], ?_⟩
    intro p hp
    obtain ⟨k, hk, rfl⟩ := List.mem_map.mp hp
    rw [List.mem_range] at hk
    dsimp only
    have h1 : k * bs ≤ (k + 1) * bs := Nat.mul_le_mul_right _ (by omega)
    have h2 : k * bs ≤ L.length := by
      have : k + 1 ≤ (L.length + bs - 1) / bs := hk
      have := (Nat.le_div_iff_mul_le hbs).mp this
      have e : (k + 1) * bs = k * bs + bs := by ring
      omega
    omega

theorem picks_chunk {α : Type} (L : List α) (p : Nat × Nat) (h : p.1 ≤ p.2 ∧ p.2 ≤ L.length) :
    Picks L ((L.take p.2).drop p.1) (.slice (chunkSlice p)) := by
  have hi : indices L.length (chunkSlice p) = some ((p.1 : Int), (p.2 : Int), 1) := by
    unfold indices chunkSlice clip
    simp only [Option.getD_none]
    rw [if_neg (by omega)]
    have a1 : ¬ ((p.1 : Int) < 0) := by omega
    have a2 : ¬ ((p.2 : Int) < 0) := by omega
    have a3 : decide ((1 : Int) < 0) = false := by decide
    rw [if_neg a1, if_neg a2]
    have e1 : (if (p.1 : Int) ≥ (L.length : Int) then (L.length : Int) else p.1) = p.1 := by split <;> omega
    have e2 : (if (p.2 : Int) ≥ (L.length : Int) then (L.length : Int) else p.2) = p.2 := by split <;> omega
    simp only [a3, Bool.false_eq_true, if_false, e1, e2]
  refine ⟨⟨p.1, p.2, 1, hi, by omega, by omega⟩, ?_⟩
  exact pySlice_nat L p.1 p.2

theorem mapM_map {α β γ ε : Type} (f : α → Except ε β) (g : α → γ) (h : γ → β) (l : List α)
    (hl : ∀ x ∈ l, f x = .ok (h (g x))) : l.mapM f = .ok ((l.map g).map h) := by
  have := mapM_ok f (fun x => h (g x)) l hl
  rw [this, List.map_map]; rfl

theorem concat1_ok {σ : Type} (l : List (List σ)) : concat1 (l.map Res.arr1) = .ok l.flatten := by
  induction l with
  | nil => rfl
  | cons x l ih => rw [List.map_cons, concat1, ih]; rfl

theorem concat2_ok {σ : Type} (m : Nat) (l : List (List (List σ))) : concat2 (l.map (Res.arr2 m)) = .ok l.flatten := by
  induction l with
  | nil => rfl
  | cons x l ih => rw [List.map_cons, concat2, ih]; rfl

/-- Column chunks put side by side give the rows again. -/
theorem hstack_chunks {σ : Type} (rows : List (List σ)) (m : Nat) (hr : ∀ x ∈ rows, x.length = m) (cs : List (Nat × Nat)) :
    hstack rows.length (cs.map fun q => Res.arr2 (q.2 - q.1) (rows.map fun r => (r.take q.2).drop q.1)) =
      .ok (rows.map fun r => (cs.map fun q => (r.take q.2).drop q.1).flatten) := by
  induction cs with
  | nil =>
    simp only [List.map_nil, hstack, List.flatten_nil]
    congr 1
    rw [List.map_const']
  | cons q cs ih =>
    rw [List.map_cons, hstack, ih]
    simp only [List.length_map, if_true]
    congr 1
    rw [List.zipWith_map, List.zipWith_self]
    simp

/-- C113: the dask array of a scalar or vector column computes to the column, whatever the size of the chunks. -/
theorem dask_column_partial {σ : Type} (dflt : Nat) (o : Obj σ) (T : Table σ) (ho : IsFile o T) (hT : T.WF) (f : Field)
    (hf : f ∈ T.fields) (bs : Option Nat) (hbs : 0 < bs.getD dflt) :
    ∃ v, getDask dflt o f.name bs = .ok (v, bs.getD dflt) ∧
      (f.shape = [] → compute v (bs.getD dflt) = .ok (.arr1 (T.data f.name).flatten)) ∧
      (∀ m, f.shape = [m] → 0 < m → compute v (bs.getD dflt) = .ok (.arr2 m (T.data f.name))) := by
  obtain ⟨w, h1, h2, _⟩ := asarray_spec o T ho hT [f.name] (by simp) (by simp) (has_one T f hf)
  obtain ⟨c, g, v, hc, hg, hgc, hv, hA⟩ := h2 ⟨f.name, f, rfl, hf, rfl⟩
  have hgf : g = f := by
    have : g.name = f.name := by rw [hgc]; simpa using hc.symm
    exact List.inj_on_of_nodup_map hT.nodup hg hf this
  subst hgf
  clear hc hgc
  have hlen := hT.len g hg
  have hsz : v.size.toNat = T.n ∧ ¬ v.size < 0 := by rw [hA.size]; omega
  refine ⟨v, ?_, ?_, ?_⟩
  · unfold getDask
    obtain ⟨rd, k, rfl, hgood⟩ := ho
    simp only [columns, fileInit, DType.names]
    rw [if_neg (by simpa using ⟨g, hg, rfl⟩)]
    unfold column
    unfold fileInit at h1
    rw [h1]
    simp only [hv]
  · intro hsh
    rw [hsh] at hA
    unfold compute
    rw [if_neg (fun h => h.elim (fun h => by omega) hsz.2), hA.sub, hsz.1]
    have hfl : (T.data g.name).flatten.length = T.n := by
      rw [flat_length, hlen]
      intro x hx
      rw [hT.item g hg x hx, hsh]; rfl
    obtain ⟨t1, t2⟩ := chunks_tile (T.data g.name).flatten (bs.getD dflt) hbs
    rw [hfl] at t1 t2
    rw [mapM_map (fun p => getitem v (.slice (chunkSlice p)) [])
      (fun p : Nat × Nat => ((T.data g.name).flatten.take p.2).drop p.1) Res.arr1]
    · simp only [concat1_ok, t1]
    · intro p hp
      exact array1_rows v T hT g hg hsh hA _ _ (picks_chunk _ p (by rw [hfl]; exact t2 p hp))
  · intro m hsh hm
    rw [hsh] at hA
    have hrow : ∀ x ∈ T.data g.name, x.length = m := by
      intro x hx
      rw [hT.item g hg x hx, hsh]; simp
    have harr := array_one T g.name hlen
    obtain ⟨t1, t2⟩ := chunks_tile (T.data g.name) (bs.getD dflt) hbs
    rw [hlen] at t1 t2
    unfold compute
    rw [if_neg (fun h => h.elim (fun h => by omega) hsz.2), hA.sub, hsz.1]
    dsimp only
    rw [mapM_map (blockRow v m (bs.getD dflt)) (fun p : Nat × Nat => ((T.data g.name).take p.2).drop p.1) (Res.arr2 m)]
    · simp only [concat2_ok, t1]
    · intro p hp
      have hp2 := t2 p hp
      generalize hR : ((T.data g.name).take p.2).drop p.1 = R
      have hRm : ∀ x ∈ R, x.length = m := by
        intro x hx
        rw [← hR] at hx
        exact hrow x (List.mem_of_mem_take (List.mem_of_mem_drop hx))
      have hRl : R.length = p.2 - p.1 := by rw [← hR]; simp; omega
      have hpick : Picks (T.array [g.name]) R (.slice (chunkSlice p)) := by
        rw [harr, ← hR]
        exact picks_chunk _ p (by rw [hlen]; exact hp2)
      have hget := (array2_rows v T [g.name] m (by simp) (by simp) (has_one T g hg) hA hm (by rw [harr]; exact hrow) _ _ hpick).2
      have hrange : (List.range m).length = m := by simp
      obtain ⟨s1, s2⟩ := chunks_tile (List.range m) (bs.getD dflt) hbs
      rw [hrange] at s1 s2
      have hblock : (chunks m (bs.getD dflt)).mapM
          (fun q => getitem v (.slice (chunkSlice p)) [.slice (chunkSlice q)]) =
          .ok ((chunks m (bs.getD dflt)).map fun q => Res.arr2 (q.2 - q.1) (R.map fun r => (r.take q.2).drop q.1)) := by
        apply mapM_ok
        intro q hq
        have hq2 := s2 q hq
        rw [hget]
        unfold applySub
        simp only
        have : pySlice (List.range m) (chunkSlice q) = some (((List.range m).take q.2).drop q.1) := pySlice_nat _ q.1 q.2
        rw [this]
        simp only
        congr 2
        · simp; omega
        · apply List.map_congr_left
          intro r hr
          have hrm := hRm r hr
          exact slice_entries r m q.1 q.2 hrm
      unfold blockRow
      rw [hblock]
      simp only
      rw [← hRl, hstack_chunks R m hRm]
      simp only
      congr 2
      conv_rhs => rw [← List.map_id R]
      apply List.map_congr_left
      intro r hr
      have hrm := hRm r hr
      have := (chunks_tile r (bs.getD dflt) hbs).1
      rw [hrm] at this
      exact this

end NBK.FileObj
