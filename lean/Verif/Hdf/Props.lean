import Verif.Hdf.Model
import Mathlib.Tactic.ByContra

set_option linter.unusedSimpArgs false

/-! C95: columns of HDF files. -/
namespace NBK.Hdf
variable {α : Type}

/-- A file: the paths are distinct and not empty, nothing lies below a dataset, the fields of a structured array have its size
and distinct names, and names are not empty and have no slash. -/
structure WF (ff : File α) : Prop where
  nonempty : ∀ o ∈ ff, o.path ≠ []
  paths : (ff.map (·.path)).Nodup
  leaf : ∀ o ∈ ff, ∀ o' ∈ ff, o.node ≠ .group → o.path <+: o'.path → o' = o
  sizes : ∀ o ∈ ff, ∀ n fs, o.node = .table n fs → ∀ f ∈ fs, f.2.length = n
  fieldsNodup : ∀ o ∈ ff, ∀ n fs, o.node = .table n fs → (fs.map (·.1)).Nodup
  names : ∀ o ∈ ff, ∀ n ∈ o.path, n ≠ [] ∧ '/' ∉ n
  fieldNames : ∀ o ∈ ff, ∀ n fs, o.node = .table n fs → ∀ f ∈ fs, f.1 ≠ [] ∧ '/' ∉ f.1

/-- The columns below a path with their rows: the plain datasets, and the fields of the structured ones. -/
inductive Column (ff : File α) (root : Path) : Path → List α → Prop
  | plain (col : Path) (rows : List α) (attrs : AttrDict) (h : (⟨root ++ col, .plain rows, attrs⟩ : Obj α) ∈ ff) :
      Column ff root col rows
  | field (d : Path) (f : Name) (rows : List α) (n : Nat) (fs : List (Name × List α)) (attrs : AttrDict)
      (h : (⟨root ++ d, .table n fs, attrs⟩ : Obj α) ∈ ff) (hf : (f, rows) ∈ fs) : Column ff root (d ++ [f]) rows

theorem WF.distinct {ff : File α} (wf : WF ff) : ∀ o ∈ ff, ∀ o' ∈ ff, o.path = o'.path → o = o' :=
  fun _ h _ h' => List.inj_on_of_nodup_map wf.paths h h'

theorem WF.fields {ff : File α} (wf : WF ff) : ∀ o ∈ ff, ∀ n fs, o.node = .table n fs → ∀ f ∈ fs, ∀ g ∈ fs, f.1 = g.1 → f = g :=
  fun o ho n fs h _ hf _ hg => List.inj_on_of_nodup_map (wf.fieldsNodup o ho n fs h) hf hg

theorem lookup_mem (ff : File α) (wf : WF ff) (o : Obj α) (h : o ∈ ff) : lookup ff o.path = some o.node := by
  unfold lookup
  rw [if_neg (wf.nonempty o h)]
  cases hf : ff.find? fun x => decide (x.path = o.path) with
  | none => exact absurd (List.find?_eq_none.mp hf o h) (by simp)
  | some x =>
    have h1 : x.path = o.path := by simpa using List.find?_some hf
    have h2 := wf.distinct x (List.mem_of_find?_eq_some hf) o h h1
    simp [h2]

theorem lookup_some (ff : File α) (p : Path) (n : Node α) (hp : p ≠ []) (h : lookup ff p = some n) :
    ∃ o ∈ ff, o.path = p ∧ o.node = n := by
  unfold lookup at h
  rw [if_neg hp] at h
  cases hf : ff.find? fun x => decide (x.path = p) with
  | none => rw [hf] at h; cases h
  | some x =>
    rw [hf] at h
    exact ⟨x, List.mem_of_find?_eq_some hf, by simpa using List.find?_some hf, by simpa using h⟩

/-- Rows of a slice: item `i` is row `start + i * step`. -/
theorem slice_spec (rows : List α) (start stop step : Nat) (hk : 0 < step) (h : stop ≤ rows.length) :
    (sliceRows rows start stop step).length = (stop - start + step - 1) / step ∧
    ∀ i, i < (stop - start + step - 1) / step → (sliceRows rows start stop step)[i]? = rows[start + i * step]? ∧
      start + i * step < stop := by
  have key : ∀ i, i < (stop - start + step - 1) / step → start + i * step < stop := by
    intro i hi
    have := (Nat.le_div_iff_mul_le hk).mp (Nat.succ_le_of_lt hi)
    rw [Nat.succ_mul] at this
    omega
  have e : sliceRows rows start stop step = (List.range ((stop - start + step - 1) / step)).pmap
      (fun i (hi : start + i * step < rows.length) => rows[start + i * step]) (by
        intro i hi
        have := key i (List.mem_range.mp hi)
        omega) := by
    unfold sliceRows
    have : ∀ (l : List Nat) (hl : ∀ i ∈ l, start + i * step < rows.length), l.filterMap (fun i => rows[start + i * step]?) =
        l.pmap (fun i (hi : start + i * step < rows.length) => rows[start + i * step]) hl := by
      intro l
      induction l with
      | nil => intro _; rfl
      | cons a l ih =>
        intro hl
        rw [List.filterMap_cons, List.getElem?_eq_getElem (hl a (by simp))]
        simp only [List.pmap_cons]
        rw [ih fun i hi => hl i (by simp [hi])]
    exact this _ _
  constructor
  · rw [e]; simp
  · intro i hi
    refine ⟨?_, key i hi⟩
    rw [e, List.getElem?_eq_getElem (by simpa using hi), List.getElem?_eq_getElem (by have := key i hi; omega)]
    simp

/-- Reading depends on the joined path only, and finds the rows of the column. -/
theorem readColumn_column (ff : File α) (wf : WF ff) (root ds c col : Path) (rows : List α) (h : Column ff root col rows)
    (he : ds ++ c = root ++ col) (start stop step : Nat) :
    readColumn ff ds c start stop step = .ok (sliceRows rows start stop step) := by
  unfold readColumn
  simp only [he]
  cases h with
  | plain _ _ attrs h =>
    have := lookup_mem ff wf _ h
    simp only at this
    rw [this]
  | field d f _ n fs attrs h hf =>
    have h1 := lookup_mem ff wf _ h
    simp only at h1
    rw [← List.append_assoc]
    have h0 : lookup ff (root ++ d ++ [f]) = none := by
      cases hl : lookup ff (root ++ d ++ [f]) with
      | none => rfl
      | some x =>
        obtain ⟨o, ho, hp, _⟩ := lookup_some ff _ x (by simp) hl
        have := wf.leaf _ h o ho (by simp) (by rw [hp]; exact List.prefix_append _ _)
        rw [this] at hp
        simp at hp
    rw [h0]
    simp only [List.dropLast_concat, h1]
    cases hg : fs.find? fun x => decide (x.1 = (root ++ d ++ [f]).getLastD []) with
    | none =>
      have := List.find?_eq_none.mp hg (f, rows) hf
      simp at this
    | some g =>
      have h2 : g.1 = f := by simpa using List.find?_some hg
      have h3 := wf.fields _ h n fs rfl g (List.mem_of_find?_eq_some hg) (f, rows) hf h2
      simp [h3]

/-- What the information about a column says. -/
def InfoOf (ff : File α) (root : Path) (i : Info) (rows : List α) : Prop :=
  (∃ attrs, (⟨root ++ i.col, .plain rows, attrs⟩ : Obj α) ∈ ff ∧ i.dset = i.col ∧ i.size = rows.length) ∨
  ∃ fs attrs f, (⟨root ++ i.dset, .table i.size fs, attrs⟩ : Obj α) ∈ ff ∧ (f, rows) ∈ fs ∧ i.col = i.dset ++ [f]

theorem InfoOf.column {ff : File α} {root : Path} {i : Info} {rows : List α} (h : InfoOf ff root i rows) :
    Column ff root i.col rows := by
  rcases h with ⟨attrs, h, _, _⟩ | ⟨fs, attrs, f, h, hf, he⟩
  · exact .plain _ _ attrs h
  · rw [he]; exact .field _ _ _ _ fs attrs h hf

theorem InfoOf.size {ff : File α} (wf : WF ff) {root : Path} {i : Info} {rows : List α} (h : InfoOf ff root i rows) :
    i.size = rows.length := by
  rcases h with ⟨attrs, h, _, h2⟩ | ⟨fs, attrs, f, h, hf, he⟩
  · exact h2
  · exact (wf.sizes _ h _ fs rfl _ hf).symm

theorem mem_visited (ff : File α) (wf : WF ff) (root p : Path) (o : Obj α) :
    (p, o) ∈ visited ff root → o ∈ ff ∧ o.path = root ++ p := by
  intro h
  unfold visited at h
  split at h
  · obtain ⟨x, hx, h⟩ := List.mem_filterMap.mp h
    split at h
    · rename_i hp
      simp only [Option.some.injEq, Prod.mk.injEq] at h
      obtain ⟨h1, rfl⟩ := h
      obtain ⟨t, ht⟩ := List.isPrefixOf_iff_prefix.mp hp.1
      refine ⟨hx, ?_⟩
      rw [← h1, ← ht]; simp
    · cases h
  · obtain ⟨x, hx, h⟩ := List.mem_filterMap.mp h
    split at h
    · rename_i hp
      simp only [Option.some.injEq, Prod.mk.injEq] at h
      obtain ⟨rfl, rfl⟩ := h
      exact ⟨hx, by simp [hp]⟩
    · cases h

theorem visited_mem (ff : File α) (wf : WF ff) (root p : Path) (o : Obj α) (ho : o ∈ ff) (hp : o.path = root ++ p)
    (hn : o.node ≠ .group) (hs : (lookup ff root).isSome) : (p, o) ∈ visited ff root := by
  unfold visited
  split
  · rename_i hg
    refine List.mem_filterMap.mpr ⟨o, ho, ?_⟩
    have hne : o.path ≠ root := by
      intro h
      rw [← h, lookup_mem ff wf o ho] at hg
      exact hn (by simpa using hg)
    rw [if_pos ⟨List.isPrefixOf_iff_prefix.mpr ⟨p, hp.symm⟩, hne⟩, hp]
    simp
  · rename_i hg
    have hr : root ≠ [] := by
      intro h
      exact hg (by rw [h]; simp [lookup])
    refine List.mem_filterMap.mpr ⟨o, ho, ?_⟩
    have : o.path = root := by
      cases hl : lookup ff root with
      | none => rw [hl] at hs; cases hs
      | some x =>
        obtain ⟨o', ho', hp', hx⟩ := lookup_some ff root x hr hl
        have := wf.leaf o' ho' o ho (by rw [hx]; intro h; exact hg (by rw [hl, h])) (by rw [hp', hp]; exact List.prefix_append _ _)
        rw [this, hp']
    rw [if_pos this]
    have : p = [] := by rw [hp] at this; simpa using this
    rw [this]

/-- All columns, before the exclusion. -/
theorem info_iff (ff : File α) (wf : WF ff) (root : Path) (hs : (lookup ff root).isSome) (i : Info) :
    (i ∈ (visited ff root).flatMap fun po => findDatasets po.1 po.2.node) ↔ ∃ rows, InfoOf ff root i rows := by
  constructor
  · intro h
    obtain ⟨⟨p, o⟩, hpo, hi⟩ := List.mem_flatMap.mp h
    obtain ⟨ho, hp⟩ := mem_visited ff wf root p o hpo
    obtain ⟨path, node, attrs⟩ := o
    simp only at hp hi
    subst hp
    cases node with
    | group => cases hi
    | plain rows =>
      have : i = ⟨p, rows.length, p⟩ := by simpa [findDatasets] using hi
      subst this
      exact ⟨rows, .inl ⟨attrs, ho, rfl, rfl⟩⟩
    | table n fs =>
      obtain ⟨f, hf, rfl⟩ := List.mem_map.mp hi
      exact ⟨f.2, .inr ⟨fs, attrs, f.1, ho, hf, rfl⟩⟩
  · rintro ⟨rows, ⟨attrs, h, h1, h2⟩ | ⟨fs, attrs, f, h, hf, he⟩⟩
    · refine List.mem_flatMap.mpr ⟨(i.col, _), visited_mem ff wf root i.col _ h rfl (by simp) hs, ?_⟩
      obtain ⟨c, n, d⟩ := i
      simp only at h1 h2
      subst h1 h2
      simp [findDatasets]
    · refine List.mem_flatMap.mpr ⟨(i.dset, _), visited_mem ff wf root i.dset _ h rfl (by simp) hs, ?_⟩
      obtain ⟨c, n, d⟩ := i
      simp only at he hf
      subst he
      simp only [findDatasets, List.mem_map]
      exact ⟨(f, rows), hf, rfl⟩

theorem visited_pairwise (ff : File α) (wf : WF ff) (root : Path) : (visited ff root).Pairwise fun a b => a.1 ≠ b.1 := by
  have hp : ff.Pairwise fun a b => a.path ≠ b.path := (List.pairwise_map).mp wf.paths
  have step : ∀ (g : Obj α → Option (Path × Obj α)), (∀ o p o', g o = some (p, o') → o.path = root ++ p) →
      (ff.filterMap g).Pairwise fun a b => a.1 ≠ b.1 := by
    intro g hg
    rw [List.pairwise_filterMap]
    refine hp.imp ?_
    intro a b hab x hx y hy he
    refine hab ?_
    rw [hg a x.1 x.2 hx, hg b y.1 y.2 hy, he]
  unfold visited
  split
  · refine step _ ?_
    intro o p o' h
    split at h
    · rename_i hq
      simp only [Option.some.injEq, Prod.mk.injEq] at h
      obtain ⟨t, ht⟩ := List.isPrefixOf_iff_prefix.mp hq.1
      rw [← h.1, ← ht]; simp
    · cases h
  · refine step _ ?_
    intro o p o' h
    split at h
    · rename_i hq
      simp only [Option.some.injEq, Prod.mk.injEq] at h
      rw [← h.1, hq]; simp
    · cases h

theorem info_nodup (ff : File α) (wf : WF ff) (root : Path) (ex : List (List Char)) : (columnInfo ff root ex).Nodup := by
  unfold columnInfo
  refine List.Nodup.filter _ ?_
  rw [List.nodup_flatMap]
  constructor
  · rintro ⟨p, o⟩ hpo
    obtain ⟨ho, _⟩ := mem_visited ff wf root p o hpo
    obtain ⟨path, node, attrs⟩ := o
    cases node with
    | group => simp [findDatasets]
    | plain rows => simp [findDatasets]
    | table n fs =>
      have := wf.fieldsNodup _ ho n fs rfl
      simp only [findDatasets]
      refine (List.Nodup.of_map (fun i : Info => i.col.getLastD []) ?_)
      simpa [Function.comp_def] using this
  · refine (visited_pairwise ff wf root).imp ?_
    rintro ⟨p, o⟩ ⟨q, o'⟩ hne
    intro i hi hi'
    have key : ∀ (p : Path) (n : Node α), i ∈ findDatasets p n → i.dset = p := by
      intro p n h
      cases n with
      | group => cases h
      | plain rows =>
        have : i = ⟨p, rows.length, p⟩ := by simpa [findDatasets] using h
        rw [this]
      | table n fs =>
        obtain ⟨f, _, rfl⟩ := List.mem_map.mp h
        rfl
    exact hne ((key p _ hi).symm.trans (key q _ hi'))

theorem column_info (ff : File α) (wf : WF ff) (root col : Path) (rows : List α) (h : Column ff root col rows) :
    ∃ i, InfoOf ff root i rows ∧ i.col = col := by
  cases h with
  | plain _ _ attrs h => exact ⟨⟨col, rows.length, col⟩, .inl ⟨attrs, h, rfl, rfl⟩, rfl⟩
  | field d f _ n fs attrs h hf => exact ⟨⟨d ++ [f], n, d⟩, .inr ⟨fs, attrs, f, h, hf, rfl⟩, rfl⟩

/-- Excluded, by the strings. -/
def Dropped (ff : File α) (root : Path) (ex : List (List Char)) (col : Path) : Prop :=
  ∃ e ∈ ex, e <+: absname root col

theorem mem_columnInfo (ff : File α) (wf : WF ff) (root : Path) (hs : (lookup ff root).isSome) (ex : List (List Char)) (i : Info) :
    i ∈ columnInfo ff root ex ↔ (∃ rows, InfoOf ff root i rows) ∧ ¬ Dropped ff root ex i.col := by
  unfold columnInfo
  rw [List.mem_filter, info_iff ff wf root hs]
  refine and_congr_right fun _ => ?_
  simp [Dropped]

theorem dedup_single {β : Type} [DecidableEq β] (l : List β) (x : β) (h : l.dedup = [x]) : ∀ y ∈ l, y = x := by
  intro y hy
  have := List.mem_dedup.mpr hy
  rw [h] at this
  simpa using this

/-- C95: the columns of an open file are those of the datasets at or below `dataset` and not excluded; all have the size of the
file, and reading a column returns the rows `start:stop:step` of its dataset or field. The path `dataset` with the name of the
column is the full path of the column. Partial: `dataset` is not a plain array, and the exclusion is by strings. -/
theorem columns_partial (ff : File α) (wf : WF ff) (root : Path) (exclude : List Given) (header : Option Given) (h : HDFFile)
    (hroot : ∀ rows, lookup ff root ≠ some (.plain rows)) (hi : init ff root exclude header = .ok h) :
    ∃ ex, excludedStrings ff root exclude header = .ok ex ∧ h.columns ≠ [] ∧
      (∀ c ∈ h.columns, ∃ col rows, Column ff root col rows ∧ ¬ Dropped ff root ex col ∧ h.dataset ++ c = root ++ col ∧
        rows.length = h.size ∧
        ∀ start stop step, read ff h [c] start stop step = .ok [(c, sliceRows rows start stop step)]) ∧
      (∀ col rows, Column ff root col rows → ¬ Dropped ff root ex col → ∃ c ∈ h.columns, h.dataset ++ c = root ++ col) := by
  unfold init at hi
  by_cases hs : (lookup ff root).isNone
  · simp only [hs, if_true, bind, Except.bind, throw, throwThe, MonadExceptOf.throw] at hi
    cases hi
  have hs' : (lookup ff root).isSome := by
    cases hl : lookup ff root with
    | none => simp [hl] at hs
    | some x => rfl
  simp only [hs, bind, Except.bind, pure, Except.pure, throw, throwThe, MonadExceptOf.throw] at hi
  cases hex : excludedStrings ff root exclude header with
  | error e => rw [hex] at hi; cases hi
  | ok ex =>
  rw [hex] at hi
  simp only [Bool.false_eq_true, if_false] at hi
  refine ⟨ex, rfl, ?_⟩
  have hmem := mem_columnInfo ff wf root hs' ex
  have hnd := info_nodup ff wf root ex
  generalize columnInfo ff root ex = info at hi hmem hnd
  -- names of columns are not empty
  have hcol : ∀ i ∈ info, i.col ≠ [] := by
    intro i hin hc
    obtain ⟨⟨rows, hr⟩, _⟩ := (hmem i).mp hin
    rcases hr with ⟨attrs, h1, _, _⟩ | ⟨fs, attrs, f, h1, _, he⟩
    · rw [hc, List.append_nil] at h1
      exact hroot rows (lookup_mem ff wf _ h1)
    · rw [hc] at he; simp at he
  have plainName : ∀ i ∈ info, dtypeName false i.col = i.col := by
    intro i hin
    simp [dtypeName, hcol i hin]
  have finish : ∀ (ds : Path) (nm : Info → Path) (size : Nat) (attrs : List (Path × Attr)),
      info ≠ [] → (∀ i ∈ info, ds ++ nm i = root ++ i.col) → (∀ i ∈ info, i.size = size) →
      h = ⟨ds, info.map nm, size, attrs⟩ →
      h.columns ≠ [] ∧
      (∀ c ∈ h.columns, ∃ col rows, Column ff root col rows ∧ ¬ Dropped ff root ex col ∧ h.dataset ++ c = root ++ col ∧
        rows.length = h.size ∧
        ∀ start stop step, read ff h [c] start stop step = .ok [(c, sliceRows rows start stop step)]) ∧
      (∀ col rows, Column ff root col rows → ¬ Dropped ff root ex col → ∃ c ∈ h.columns, h.dataset ++ c = root ++ col) := by
    intro ds nm size attrs hne hnm hsz hh
    subst hh
    refine ⟨by simpa using hne, ?_, ?_⟩
    · intro c hc
      have hc' := hc
      obtain ⟨i, hin, rfl⟩ := List.mem_map.mp hc
      obtain ⟨⟨rows, hr⟩, hd⟩ := (hmem i).mp hin
      refine ⟨i.col, rows, hr.column, hd, hnm i hin, ?_, ?_⟩
      · rw [← hr.size wf]; exact hsz i hin
      · intro start stop step
        unfold read
        simp only [List.mapM_cons, List.mapM_nil, if_pos hc', bind, Except.bind, pure, Except.pure]
        rw [readColumn_column ff wf root ds (nm i) i.col rows hr.column (hnm i hin)]
    · intro col rows hc hd
      obtain ⟨i, hi, rfl⟩ := column_info ff wf root col rows hc
      have hin := (hmem i).mpr ⟨⟨rows, hi⟩, hd⟩
      exact ⟨nm i, List.mem_map.mpr ⟨i, hin, rfl⟩, hnm i hin⟩
  have hne : ∀ n, (info.map (·.size)).dedup = [n] → info ≠ [] := by
    intro n hn hnil
    rw [hnil] at hn
    simp at hn
  split at hi
  · cases hi
  · cases hi
  · rename_i size hsize
    have hsz : ∀ i ∈ info, i.size = size := fun i hin => dedup_single _ _ hsize _ (List.mem_map.mpr ⟨i, hin, rfl⟩)
    have plainCase : ∀ attrs, HDFFile.mk root (info.map fun i => dtypeName false i.col) size attrs = h → _ := fun attrs hh =>
      finish root (fun i => dtypeName false i.col) size attrs (hne _ hsize)
        (fun i hin => by rw [plainName i hin]) hsz hh.symm
    split at hi
    · rename_i name hname
      split at hi
      · rename_i hlen
        split at hi
        · cases hi
        · rename_i attrs hattrs
          simp only [Except.ok.injEq] at hi
          have hds : ∀ i ∈ info, i.dset = name := fun i hin => dedup_single _ _ hname _ (List.mem_map.mpr ⟨i, hin, rfl⟩)
          have hfield : ∀ i ∈ info, ∃ f, i.col = name ++ [f] := by
            intro i hin
            obtain ⟨⟨rows, hr⟩, _⟩ := (hmem i).mp hin
            rcases hr with ⟨attrs, h1, h2, h3⟩ | ⟨fs, attrs, f, h1, _, he⟩
            · exfalso
              have hall : ∀ j ∈ info, j = i := by
                intro j hjn
                obtain ⟨⟨rows', hr'⟩, _⟩ := (hmem j).mp hjn
                have hji : j.dset = i.dset := (hds j hjn).trans (hds i hin).symm
                rcases hr' with ⟨attrs', h1', h2', h3'⟩ | ⟨fs', attrs', f', h1', _, he'⟩
                · have hcc : j.col = i.col := by rw [← h2', ← h2, hji]
                  have := wf.distinct _ h1 _ h1' (by simp [hcc])
                  have hrr : rows = rows' := by
                    have := congrArg Obj.node this
                    simpa using this
                  obtain ⟨c, n, d⟩ := i
                  obtain ⟨c', n', d'⟩ := j
                  simp only at hcc hji h3 h3'
                  rw [hcc, hji, h3, h3', hrr]
                · have := wf.distinct _ h1 _ h1' (by simp [hji, h2])
                  have := congrArg Obj.node this
                  simp at this
              match info, hnd, hlen, hall with
              | a :: b :: l, hnd, _, hall =>
                have h1 := hall a (by simp)
                have h2 := hall b (by simp)
                rw [h1, h2] at hnd
                simp at hnd
            · exact ⟨f, by rw [he, hds i hin]⟩
          refine finish (root ++ name) (fun i => dtypeName true i.col) size attrs (hne _ hsize) ?_ hsz hi.symm
          intro i hin
          obtain ⟨f, hf⟩ := hfield i hin
          simp [dtypeName, hf]
      · exact plainCase _ (by simpa using hi)
    · exact plainCase _ (by simpa using hi)

theorem read_columns (ff : File α) (h : HDFFile) (start stop step : Nat) : ∀ cs : List Path,
    (∀ c ∈ cs, ∃ rows, read ff h [c] start stop step = .ok [(c, rows)]) →
    ∃ out, read ff h cs start stop step = .ok out ∧ out.map (·.1) = cs ∧
      ∀ e ∈ out, read ff h [e.1] start stop step = .ok [e] := by
  intro cs
  induction cs with
  | nil => intro _; exact ⟨[], rfl, rfl, by simp⟩
  | cons c cs ih =>
    intro hc
    obtain ⟨out, h1, h2, h3⟩ := ih fun c' h' => hc c' (by simp [h'])
    obtain ⟨rows, hr⟩ := hc c (by simp)
    refine ⟨(c, rows) :: out, ?_, by simp [h2], ?_⟩
    · unfold read at hr h1 ⊢
      rw [List.mapM_cons, h1]
      simp only [List.mapM_cons, List.mapM_nil, bind, Except.bind, pure, Except.pure] at hr ⊢
      by_cases hcm : c ∈ h.columns
      · simp only [if_pos hcm] at hr ⊢
        cases hx : readColumn ff h.dataset c start stop step with
        | error e => simp [hx] at hr
        | ok v => simp only [hx, Except.ok.injEq, List.cons.injEq, Prod.mk.injEq, true_and, and_true] at hr ⊢; exact hr
      · simp [if_neg hcm] at hr
    · intro e he
      rcases List.mem_cons.mp he with rfl | he
      · exact hr
      · exact h3 e he

/-- C95: columns of different sizes that are not excluded are a ValueError. -/
theorem sizes_error (ff : File α) (wf : WF ff) (root : Path) (exclude : List Given) (header : Option Given) (ex : List (List Char))
    (hs : (lookup ff root).isSome) (hex : excludedStrings ff root exclude header = .ok ex) (c c' : Path) (rows rows' : List α)
    (hc : Column ff root c rows) (hc' : Column ff root c' rows') (hd : ¬ Dropped ff root ex c) (hd' : ¬ Dropped ff root ex c')
    (hne : rows.length ≠ rows'.length) : init ff root exclude header = .error .valueError := by
  unfold init
  have hs' : (lookup ff root).isNone = false := by simpa using hs
  simp only [hs', hex, bind, Except.bind, pure, Except.pure, throw, throwThe, MonadExceptOf.throw, Bool.false_eq_true, if_false]
  have hmem := mem_columnInfo ff wf root hs ex
  obtain ⟨i, hi, rfl⟩ := column_info ff wf root c rows hc
  obtain ⟨j, hj, rfl⟩ := column_info ff wf root c' rows' hc'
  have h1 := (hmem i).mpr ⟨⟨rows, hi⟩, hd⟩
  have h2 := (hmem j).mpr ⟨⟨rows', hj⟩, hd'⟩
  generalize columnInfo ff root ex = info at h1 h2
  split
  · rfl
  · rfl
  · rename_i n hn
    exfalso
    have a := dedup_single _ _ hn _ (List.mem_map.mpr ⟨i, h1, rfl⟩)
    have b := dedup_single _ _ hn _ (List.mem_map.mpr ⟨j, h2, rfl⟩)
    rw [hi.size wf] at a
    rw [hj.size wf] at b
    exact hne (a.trans b.symm)

/-! ### Exclusion -/

theorem prefix_slash (n m A B : List Char) (hn : '/' ∉ n) (hm : '/' ∉ m) (h : n ++ '/' :: A <+: m ++ '/' :: B) :
    n = m ∧ A <+: B := by
  induction n generalizing m with
  | nil =>
    cases m with
    | nil => exact ⟨rfl, (List.cons_prefix_cons.mp h).2⟩
    | cons c m =>
      have := (List.cons_prefix_cons.mp h).1
      exact absurd (by rw [this]; simp) hm
  | cons a n ih =>
    cases m with
    | nil =>
      have := (List.cons_prefix_cons.mp h).1
      exact absurd (by simp [this]) hn
    | cons c m =>
      obtain ⟨h1, h2⟩ := List.cons_prefix_cons.mp h
      obtain ⟨h3, h4⟩ := ih m (fun h => hn (by simp [h])) (fun h => hm (by simp [h])) h2
      exact ⟨by rw [h1, h3], h4⟩

theorem prefix_name (n m B : List Char) (hn : '/' ∉ n) (h : n <+: m ++ '/' :: B) : n <+: m := by
  induction n generalizing m with
  | nil => exact List.nil_prefix
  | cons a n ih =>
    cases m with
    | nil =>
      have := (List.cons_prefix_cons.mp h).1
      exact absurd (by simp [this]) hn
    | cons c m =>
      obtain ⟨h1, h2⟩ := List.cons_prefix_cons.mp h
      exact List.cons_prefix_cons.mpr ⟨h1, ih m (fun h => hn (by simp [h])) h2⟩

/-- A path begins with another path as a string: one of its names begins with the last name of the other. -/
theorem render_prefix (e q : Path) (he : ∀ n ∈ e, n ≠ [] ∧ '/' ∉ n) (hq : ∀ n ∈ q, n ≠ [] ∧ '/' ∉ n) (hne : e ≠ []) :
    render e <+: render q ↔ ∃ parent n s rest, e = parent ++ [n] ∧ q = parent ++ (n ++ s) :: rest := by
  induction e generalizing q with
  | nil => exact absurd rfl hne
  | cons n e ih =>
    cases e with
    | nil =>
      constructor
      · intro h
        cases q with
        | nil =>
          have : n = [] := by simpa [render] using h
          exact absurd this (he n (by simp)).1
        | cons m q =>
          have hm : n <+: m := by
            cases q with
            | nil => simpa [render] using h
            | cons m' q => exact prefix_name n m _ (he n (by simp)).2 (by simpa [render] using h)
          obtain ⟨s, hs⟩ := hm
          exact ⟨[], n, s, q, rfl, by simp [hs]⟩
      · rintro ⟨parent, n', s, rest, h1, h2⟩
        cases parent with
        | cons p ps => simp at h1
        | nil =>
          have : n = n' := by simpa using h1
          subst this
          rw [h2]
          cases rest with
          | nil => simp [render]
          | cons r rest => simp [render]
    | cons n' e =>
      have ih' := fun q hq => ih q (fun x hx => he x (by simp [hx])) hq (by simp)
      constructor
      · intro h
        cases q with
        | nil => simp [render] at h
        | cons m q =>
          cases q with
          | nil =>
            exfalso
            have : '/' ∈ m := by
              obtain ⟨t, ht⟩ := h
              rw [show render [m] = m from rfl] at ht
              rw [← ht]; simp [render]
            exact (hq m (by simp)).2 this
          | cons m' q =>
            obtain ⟨h1, h2⟩ := prefix_slash n m _ _ (he n (by simp)).2 (hq m (by simp)).2 h
            obtain ⟨parent, x, s, rest, h3, h4⟩ := (ih' _ fun x hx => hq x (by simp [hx])).mp h2
            exact ⟨n :: parent, x, s, rest, by simp [h3], by simp [h1, h4]⟩
      · rintro ⟨parent, x, s, rest, h1, h2⟩
        cases parent with
        | nil => simp at h1
        | cons p ps =>
          simp only [List.cons_append, List.cons.injEq] at h1
          obtain ⟨rfl, h1⟩ := h1
          have hq' : q = n :: (ps ++ (x ++ s) :: rest) := by simpa using h2
          have := (ih' (ps ++ (x ++ s) :: rest) fun y hy => hq y (by rw [hq']; simp only [List.mem_cons]; exact .inr hy)).mpr ⟨ps, x, s, rest, h1, rfl⟩
          rw [hq']
          obtain ⟨m', q', hm⟩ : ∃ m' q', ps ++ (x ++ s) :: rest = m' :: q' := by
            cases ps with
            | nil => exact ⟨_, _, rfl⟩
            | cons a b => exact ⟨_, _, rfl⟩
          rw [hm] at this ⊢
          simp only [render]
          exact (List.prefix_append_right_inj n).mpr (List.cons_prefix_cons.mpr ⟨rfl, this⟩)

theorem column_names (ff : File α) (wf : WF ff) (root col : Path) (rows : List α) (h : Column ff root col rows) :
    ∀ n ∈ root ++ col, n ≠ [] ∧ '/' ∉ n := by
  cases h with
  | plain _ _ attrs h => exact wf.names _ h
  | field d f _ n fs attrs h hf =>
    intro m hm
    rw [← List.append_assoc] at hm
    rcases List.mem_append.mp hm with hm | hm
    · exact wf.names _ h m hm
    · have : m = f := by simpa using hm
      rw [this]
      exact wf.fieldNames _ h n fs rfl _ hf

theorem mapM_ok {β γ : Type} (f : β → Except Err γ) : ∀ (l : List β) (r : List γ), l.mapM f = .ok r →
    ∀ c, c ∈ r ↔ ∃ b ∈ l, f b = .ok c := by
  intro l
  induction l with
  | nil => intro r h c; simp only [List.mapM_nil, pure, Except.pure, Except.ok.injEq] at h; simp [← h]
  | cons b l ih =>
    intro r h c
    simp only [List.mapM_cons, bind, Except.bind, pure, Except.pure] at h
    cases hb : f b with
    | error e => rw [hb] at h; cases h
    | ok x =>
      rw [hb] at h
      cases hl : l.mapM f with
      | error e => rw [hl] at h; cases h
      | ok xs =>
        rw [hl] at h
        simp only [Except.ok.injEq] at h
        subst h
        simp only [List.mem_cons, ih xs hl, exists_eq_or_imp, hb, Except.ok.injEq]
        constructor
        · rintro (rfl | h)
          · exact .inl rfl
          · exact .inr h
        · rintro (rfl | h)
          · exact .inl rfl
          · exact .inr h

theorem resolve_names (ff : File α) (wf : WF ff) (root : Path) (g : Given) (e : Path) (h : resolve ff root g = .ok e) :
    ∀ n ∈ e, n ≠ [] ∧ '/' ∉ n := by
  have key : (lookup ff e).isSome := by
    unfold resolve at h
    simp only at h
    generalize (if g.absolute = true then g.path else root ++ g.path) = p at h
    split at h
    · rename_i h1; cases h; exact h1
    · split at h
      · rename_i h1; cases h; exact h1
      · cases h
  by_cases he : e = []
  · rw [he]; simp
  obtain ⟨x, hx⟩ := Option.isSome_iff_exists.mp key
  obtain ⟨o, ho, hp, _⟩ := lookup_some ff e x he hx
  rw [← hp]; exact wf.names o ho

/-- C95: which columns the names in `exclude` remove: those with an excluded path, those below an excluded group, and
those in which the last name of the excluded path is the beginning of a longer name. -/
theorem excluded_partial (ff : File α) (wf : WF ff) (root : Path) (exclude : List Given) (ex : List (List Char))
    (hex : excludedStrings ff root exclude none = .ok ex) (col : Path) (rows : List α) (hc : Column ff root col rows) (hne : col ≠ []) :
    Dropped ff root ex col ↔ ∃ g ∈ exclude, ∃ e, resolve ff root g = .ok e ∧
      (e <+: root ++ col ∨ ∃ parent n s rest, s ≠ [] ∧ e = parent ++ [n] ∧ root ++ col = parent ++ (n ++ s) :: rest) := by
  unfold excludedStrings at hex
  simp only [bind, Except.bind, pure, Except.pure] at hex
  cases hp : exclude.mapM (resolve ff root) with
  | error e => rw [hp] at hex; cases hex
  | ok ps =>
    rw [hp] at hex
    simp only [Except.ok.injEq] at hex
    subst hex
    have hm := mapM_ok _ _ _ hp
    have hn := column_names ff wf root col rows hc
    have key : ∀ e, (∀ n ∈ e, n ≠ [] ∧ '/' ∉ n) → (render e <+: absname root col ↔
        (e <+: root ++ col ∨ ∃ parent n s rest, s ≠ [] ∧ e = parent ++ [n] ∧ root ++ col = parent ++ (n ++ s) :: rest)) := by
      intro e he
      unfold absname
      rw [if_neg hne]
      by_cases h0 : e = []
      · rw [h0]; simp [render]
      rw [render_prefix e _ he hn h0]
      constructor
      · rintro ⟨parent, n, s, rest, h1, h2⟩
        by_cases hs : s = []
        · left
          rw [h1, h2, hs, List.append_nil]
          exact ⟨rest, by simp⟩
        · exact .inr ⟨parent, n, s, rest, hs, h1, h2⟩
      · rintro (⟨t, ht⟩ | ⟨parent, n, s, rest, _, h1, h2⟩)
        · refine ⟨e.dropLast, e.getLast h0, [], t, (List.dropLast_append_getLast h0).symm, ?_⟩
          rw [← ht, List.append_nil]
          conv_lhs => rw [← List.dropLast_append_getLast h0]
          simp
        · exact ⟨parent, n, s, rest, h1, h2⟩
    unfold Dropped
    constructor
    · rintro ⟨x, hx, hpre⟩
      obtain ⟨e, he, rfl⟩ := List.mem_map.mp hx
      obtain ⟨g, hg, hr⟩ := (hm e).mp he
      exact ⟨g, hg, e, hr, (key e (resolve_names ff wf root g e hr)).mp hpre⟩
    · rintro ⟨g, hg, e, hr, h⟩
      exact ⟨render e, List.mem_map.mpr ⟨e, (hm e).mpr ⟨g, hg, hr⟩, rfl⟩, (key e (resolve_names ff wf root g e hr)).mpr h⟩

/-- C95 fails for names that begin with an excluded name: excluding `ds1` also removes `ds10`. -/
theorem excluded_sibling : (init (α := Nat) [⟨["ds1".toList], .plain [1], []⟩, ⟨["ds10".toList], .plain [2], []⟩,
      ⟨["ds2".toList], .plain [3], []⟩] [] [⟨false, ["ds1".toList]⟩] none).toOption.map (·.columns) = some [["ds2".toList]] := by
  decide +kernel

/-- C95 fails for the header when given with a slash in front: the dataset stays a column, here one of another size. -/
theorem header_slash :
    ((init (α := Nat) [⟨["Header".toList], .plain [1], []⟩, ⟨["Mass".toList], .plain [2, 3], []⟩] [] []
      (some ⟨false, ["Header".toList]⟩)).toOption.map (·.columns) = some [["Mass".toList]]) ∧
    (init (α := Nat) [⟨["Header".toList], .plain [1], []⟩, ⟨["Mass".toList], .plain [2, 3], []⟩] [] []
      (some ⟨true, ["Header".toList]⟩)) = .error .valueError := by
  decide +kernel

/-- C95 fails for the attributes of the header when the data are a single structured array: they are lost. -/
theorem header_attrs :
    (init (α := Nat) [⟨["Header".toList], .group, [("Time".toList, 5)]⟩,
      ⟨["P".toList], .table 1 [("a".toList, [1]), ("b".toList, [2])], [("u".toList, 6)]⟩] [] []
      (some ⟨false, ["Header".toList]⟩)).toOption.map (·.attrs) = some [(["u".toList], .value 6)] := by
  decide +kernel

/-- C95 fails for a path that is a plain array: the file opens with the single column `f0`, which cannot be read. -/
theorem plain_root (ff : File α) (wf : WF ff) (root : Path) (rows : List α) (hl : lookup ff root = some (.plain rows)) :
    ∃ h, init ff root [] none = .ok h ∧ h.columns = [[['f', '0']]] ∧
      ∀ start stop step, read ff h h.columns start stop step = .error .valueError := by
  have hr : root ≠ [] := by
    intro h; rw [h] at hl; simp [lookup] at hl
  obtain ⟨o, ho, hp, hn⟩ := lookup_some ff root _ hr hl
  have hs : (lookup ff root).isSome := by rw [hl]; rfl
  have hall : ∀ i ∈ columnInfo ff root [], i = ⟨[], rows.length, []⟩ := by
    intro i hi
    obtain ⟨⟨rows', hr'⟩, _⟩ := (mem_columnInfo ff wf root hs [] i).mp hi
    rcases hr' with ⟨attrs, h1, h2, h3⟩ | ⟨fs, attrs, f, h1, _, _⟩
    · have := wf.leaf o ho _ h1 (by rw [hn]; simp) (by rw [hp]; exact List.prefix_append _ _)
      have hc : i.col = [] := by
        have := congrArg Obj.path this
        rw [hp] at this
        simpa using this
      have hrow : rows' = rows := by
        have := congrArg Obj.node this
        rw [hn] at this
        simpa using this
      obtain ⟨c, n, d⟩ := i
      simp only at hc h2 h3
      rw [h2, h3, hc, hrow]
    · have := wf.leaf o ho _ h1 (by rw [hn]; simp) (by rw [hp]; exact List.prefix_append _ _)
      have := congrArg Obj.node this
      rw [hn] at this
      cases this
  have hmem : (⟨[], rows.length, []⟩ : Info) ∈ columnInfo ff root [] := by
    refine (mem_columnInfo ff wf root hs [] _).mpr ⟨⟨rows, .inl ⟨o.attrs, ?_, rfl, rfl⟩⟩, ?_⟩
    · obtain ⟨path, node, attrs⟩ := o
      simp only at hp hn
      subst hp hn
      simpa using ho
    · simp [Dropped]
  have hinfo : columnInfo ff root [] = [⟨[], rows.length, []⟩] := by
    have hnd := info_nodup ff wf root []
    generalize columnInfo ff root [] = info at hall hmem hnd
    match info, hall, hmem, hnd with
    | [a], hall, _, _ => rw [hall a (by simp)]
    | a :: b :: l, hall, _, hnd =>
      have h1 := hall a (by simp)
      have h2 := hall b (by simp)
      rw [h1, h2] at hnd
      simp at hnd
  have h0 : lookup ff (root ++ [['f', '0']]) = none := by
    cases hl' : lookup ff (root ++ [['f', '0']]) with
    | none => rfl
    | some x =>
      obtain ⟨o', ho', hp', _⟩ := lookup_some ff _ x (by simp) hl'
      have := wf.leaf o ho o' ho' (by rw [hn]; simp) (by rw [hp', hp]; exact List.prefix_append _ _)
      rw [this, hp] at hp'
      simp at hp'
  refine ⟨⟨root, [[['f', '0']]], rows.length, collectAttrs ff root none⟩, ?_, rfl, ?_⟩
  · unfold init
    simp only [hl, excludedStrings, Option.isNone_some, bind, Except.bind, pure, Except.pure, List.mapM_nil, List.map_nil, hinfo]
    simp [dtypeName]
  · intro start stop step
    simp only [read, List.mapM_cons, List.mapM_nil, List.mem_singleton, if_true, readColumn, h0, List.dropLast_concat, hl,
      bind, Except.bind]

/-! ### Attributes -/

/-- The value of a key. -/
def getKey {κ : Type} [DecidableEq κ] {β : Type} (d : List (κ × β)) (k : κ) : Option β := (d.find? fun e => e.1 = k).map (·.2)

theorem get_set {κ : Type} [DecidableEq κ] {β : Type} (d : List (κ × β)) (k k' : κ) (v : β) :
    getKey (setKey d k v) k' = if k' = k then some v else getKey d k' := by
  unfold setKey
  split
  · rename_i h
    unfold getKey
    induction d with
    | nil => simp at h
    | cons e d ih =>
      by_cases he : e.1 = k
      · by_cases hk : k' = k
        · simp [List.find?_cons, he, hk]
        · rw [if_neg hk]
          have h1 : ¬ k = k' := fun h => hk h.symm
          simp only [List.map_cons, he, if_true, List.find?_cons, h1, decide_false]
          have : ∀ d : List (κ × β), ((d.map fun e => if e.1 = k then (k, v) else e).find? fun e => decide (e.1 = k')).map (·.2) =
              (d.find? fun e => decide (e.1 = k')).map (·.2) := by
            intro d
            induction d with
            | nil => rfl
            | cons f d ih =>
              by_cases hf : f.1 = k
              · simp only [List.map_cons, hf, if_true, List.find?_cons, h1, decide_false]; exact ih
              · simp only [List.map_cons, hf, if_false, List.find?_cons]
                split
                · rfl
                · exact ih
          exact this d
      · have h' : d.any fun e => decide (e.1 = k) := by simpa [he] using h
        have := ih h'
        simp only [List.map_cons, he, if_false, List.find?_cons]
        by_cases hk : k' = k
        · subst hk
          simp only [he, decide_false]
          rw [if_pos rfl] at this
          simpa using this
        · by_cases he' : e.1 = k'
          · simp [he', hk]
          · simp only [he', decide_false]
            exact this
  · rename_i h
    have hno : ∀ e ∈ d, e.1 ≠ k := by
      intro e he hk
      exact h (List.any_eq_true.mpr ⟨e, he, by simp [hk]⟩)
    unfold getKey
    rw [List.find?_append]
    by_cases hk : k' = k
    · subst hk
      have : d.find? (fun e => decide (e.1 = k')) = none := List.find?_eq_none.mpr fun e he => by simpa using hno e he
      simp [this]
    · have h1 : ¬ k = k' := fun h => hk h.symm
      simp [hk, h1]

/-- One step of collecting attributes. -/
def addAttrs (d : List (Path × Attr)) (po : Path × Obj α) : List (Path × Attr) :=
  match po.2.node with
  | .group => d
  | _ => setKey d po.1 (.dict po.2.attrs)

theorem addAttrs_eq (d : List (Path × Attr)) (po : Path × Obj α) (h : po.2.node ≠ .group) :
    addAttrs d po = setKey d po.1 (.dict po.2.attrs) := by
  unfold addAttrs
  split
  · rename_i h'; exact absurd h' h
  · rfl

theorem addAttrs_group (d : List (Path × Attr)) (po : Path × Obj α) (h : po.2.node = .group) : addAttrs d po = d := by
  unfold addAttrs
  rw [h]

theorem fold_other (l : List (Path × Obj α)) (k : Path) : ∀ d : List (Path × Attr),
    (∀ po ∈ l, po.2.node ≠ .group → po.1 ≠ k) → getKey (l.foldl addAttrs d) k = getKey d k := by
  induction l with
  | nil => intro d _; rfl
  | cons a l ih =>
    intro d h
    rw [List.foldl_cons, ih _ fun po hpo => h po (by simp [hpo])]
    by_cases hn : a.2.node = .group
    · rw [addAttrs_group d a hn]
    · rw [addAttrs_eq d a hn, get_set, if_neg (h a (by simp) hn).symm]

theorem fold_own (l : List (Path × Obj α)) (p : Path) (o : Obj α) : ∀ d : List (Path × Attr), l.Pairwise (fun a b => a.1 ≠ b.1) →
    (p, o) ∈ l → o.node ≠ .group → getKey (l.foldl addAttrs d) p = some (.dict o.attrs) := by
  induction l with
  | nil => intro d _ h; cases h
  | cons a l ih =>
    intro d hp hm hn
    rw [List.foldl_cons]
    obtain ⟨h1, h2⟩ := List.pairwise_cons.mp hp
    rcases List.mem_cons.mp hm with rfl | hm
    · rw [fold_other l p _ fun po hpo _ => (h1 po hpo).symm, addAttrs_eq _ _ hn, get_set, if_pos rfl]
    · exact ih _ h2 hm hn

theorem collect_eq (ff : File α) (root : Path) (header : Option Given) : collectAttrs ff root header =
    (visited ff root).foldl addAttrs (match header with
    | none => []
    | some h => (attrsOf ff h.path).foldl (fun d kv => setKey d [kv.1] (.value kv.2)) []) := by
  cases header <;> rfl

/-- C95: the attributes of every dataset are under its name, relative to `dataset`, unless the data are a single structured
array. -/
theorem attrs_dataset (ff : File α) (wf : WF ff) (root : Path) (hs : (lookup ff root).isSome) (header : Option Given) (p : Path)
    (o : Obj α) (ho : o ∈ ff) (hp : o.path = root ++ p) (hn : o.node ≠ .group) :
    getKey (collectAttrs ff root header) p = some (.dict o.attrs) := by
  rw [collect_eq]
  exact fold_own _ p o _ (visited_pairwise ff wf root) (visited_mem ff wf root p o ho hp hn hs) hn

/-- C95: the attributes of the header are under their own names, unless a dataset has the name or the data are a single
structured array. -/
theorem attrs_header (ff : File α) (wf : WF ff) (root : Path) (h : Given) (o : Obj α) (ho : o ∈ ff) (hp : o.path = h.path)
    (hd : (o.attrs.map (·.1)).Nodup) (k : Name) (v : Nat) (hk : (k, v) ∈ o.attrs)
    (hfree : ∀ o' ∈ ff, o'.node ≠ .group → o'.path ≠ root ++ [k]) :
    getKey (collectAttrs ff root (some h)) [k] = some (.value v) := by
  rw [collect_eq]
  have : ∀ po ∈ visited ff root, po.2.node ≠ .group → po.1 ≠ [k] := by
    rintro ⟨p, o'⟩ hpo hn he
    obtain ⟨h1, h2⟩ := mem_visited ff wf root p o' hpo
    simp only at he hn
    rw [he] at h2
    exact hfree o' h1 hn h2
  rw [fold_other _ _ _ this]
  have ha : attrsOf ff h.path = o.attrs := by
    unfold attrsOf
    cases hf : ff.find? fun x => decide (x.path = h.path) with
    | none => exact absurd (List.find?_eq_none.mp hf o ho) (by simp [hp])
    | some x =>
      have h1 : x.path = h.path := by simpa using List.find?_some hf
      have h2 := wf.distinct x (List.mem_of_find?_eq_some hf) o ho (h1.trans hp.symm)
      simp [h2]
  simp only [ha]
  clear ha this hfree
  have other : ∀ (l : AttrDict) (d : List (Path × Attr)), (∀ kv ∈ l, kv.1 ≠ k) →
      getKey (l.foldl (fun d kv => setKey d [kv.1] (.value kv.2)) d) [k] = getKey d [k] := by
    intro l
    induction l with
    | nil => intro d _; rfl
    | cons a l ih =>
      intro d h
      rw [List.foldl_cons, ih _ fun kv hkv => h kv (by simp [hkv]), get_set, if_neg]
      intro he
      exact h a (by simp) (by simpa using he.symm)
  have own : ∀ (l : AttrDict) (d : List (Path × Attr)), (l.map (·.1)).Nodup → (k, v) ∈ l →
      getKey (l.foldl (fun d kv => setKey d [kv.1] (.value kv.2)) d) [k] = some (.value v) := by
    intro l
    induction l with
    | nil => intro d _ h; cases h
    | cons a l ih =>
      intro d hd hk
      rw [List.foldl_cons]
      obtain ⟨h1, h2⟩ := List.nodup_cons.mp hd
      rcases List.mem_cons.mp hk with rfl | hk
      · rw [other l _ fun kv hkv he => h1 (List.mem_map.mpr ⟨kv, hkv, he⟩), get_set, if_pos rfl]
      · exact ih _ h2 hk
  exact own _ _ hd hk

/-- C95: the header is not a column when it is given without a slash in front. -/
theorem header_dropped (ff : File α) (wf : WF ff) (root : Path) (exclude : List Given) (p : Path) (ex : List (List Char))
    (hex : excludedStrings ff root exclude (some ⟨false, p⟩) = .ok ex) (col : Path) (rows : List α)
    (hc : Column ff root col rows) (hne : col ≠ []) (hp : p ≠ []) (h : p <+: root ++ col) : Dropped ff root ex col := by
  have hn := column_names ff wf root col rows hc
  have hpn : ∀ n ∈ p, n ≠ [] ∧ '/' ∉ n := fun n hm => hn n (h.subset hm)
  have hr : render p <+: absname root col := by
    unfold absname
    rw [if_neg hne, render_prefix p _ hpn hn hp]
    obtain ⟨t, ht⟩ := h
    refine ⟨p.dropLast, p.getLast hp, [], t, (List.dropLast_append_getLast hp).symm, ?_⟩
    rw [← ht, List.append_nil]
    conv_lhs => rw [← List.dropLast_append_getLast hp]
    simp
  unfold excludedStrings at hex
  simp only [bind, Except.bind, pure, Except.pure, throw, throwThe, MonadExceptOf.throw] at hex
  cases hm : exclude.mapM (resolve ff root) with
  | error e => rw [hm] at hex; cases hex
  | ok ps =>
    rw [hm] at hex
    simp only at hex
    split at hex
    · cases hex
    · cases hex
      exact ⟨render p, by simp, hr⟩

/-- The theorems are not empty: a group with a plain and a structured array, and an excluded group of another size. -/
def exampleFile : File Nat :=
  [⟨["X".toList], .group, []⟩, ⟨["X".toList, "m".toList], .plain [1, 2, 3], [("unit".toList, 4)]⟩,
   ⟨["X".toList, "p".toList], .table 3 [("a".toList, [4, 5, 6]), ("b".toList, [7, 8, 9])], []⟩,
   ⟨["Y".toList], .group, []⟩, ⟨["Y".toList, "q".toList], .plain [0], []⟩]

theorem example_wf : WF exampleFile := by
  refine ⟨by decide +kernel, by decide +kernel, by decide +kernel, ?_, ?_, by decide +kernel, ?_⟩
  all_goals
    intro o ho n fs h
    simp only [exampleFile, List.mem_cons, List.not_mem_nil, or_false] at ho
    rcases ho with rfl | rfl | rfl | rfl | rfl <;> simp at h
    obtain ⟨rfl, rfl⟩ := h
    decide +kernel

theorem example_read : ∃ h, init exampleFile [] [⟨false, ["Y".toList]⟩] none = .ok h ∧
    h.columns = [["X".toList, "m".toList], ["X".toList, "p".toList, "a".toList], ["X".toList, "p".toList, "b".toList]] ∧
    h.size = 3 ∧ read exampleFile h [["X".toList, "p".toList, "b".toList], ["X".toList, "m".toList]] 0 3 2 =
      .ok [(["X".toList, "p".toList, "b".toList], [7, 9]), (["X".toList, "m".toList], [1, 3])] := by
  refine ⟨⟨[], [["X".toList, "m".toList], ["X".toList, "p".toList, "a".toList], ["X".toList, "p".toList, "b".toList]], 3,
    [(["X".toList, "m".toList], .dict [("unit".toList, 4)]), (["X".toList, "p".toList], .dict []),
     (["Y".toList, "q".toList], .dict [])]⟩, ?_, ?_⟩ <;> decide +kernel

end NBK.Hdf
