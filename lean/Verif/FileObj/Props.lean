import Verif.FileObj.Model
import Verif.FileIO.Props
import Mathlib.Tactic.ByContra

/-!
# C113: file objects and views of their columns

A file holds a table: fields, a number of rows, and for every field the items, each a list of scalars in C order.  `Good rd T`
is the contract of `read` for forward slices; `BinaryFile`, `FITSFile` (through fitsio) and `FileStack` meet it (`OpenProps`).
-/
set_option linter.unusedSimpArgs false
namespace NBK.FileObj
open NBK.FileIO NBK.PySlice

/-- The contents of a file. -/
structure Table (σ : Type) where
  fields : List Field
  n : Nat
  data : String → List (List σ)

/-- Names are unique; each column has `n` items with the scalars of the shape of the field. -/
structure Table.WF {σ : Type} (T : Table σ) : Prop where
  nodup : (T.fields.map (·.name)).Nodup
  len : ∀ f ∈ T.fields, (T.data f.name).length = T.n
  item : ∀ f ∈ T.fields, ∀ x ∈ T.data f.name, x.length = f.shape.prod

/-- The rows of some columns. -/
def Table.rows {σ : Type} (T : Table σ) (keys : List String) : List (List (List σ)) :=
  (List.range T.n).map fun i => keys.map fun k => (T.data k).getD i []

/-- The columns side by side: row `i` holds the scalars of all of them. -/
def Table.array {σ : Type} (T : Table σ) (keys : List String) : List (List σ) :=
  (List.range T.n).map fun i => (keys.map fun k => (T.data k).getD i []).flatten

/-- The names of a table. -/
def Table.Has {σ : Type} (T : Table σ) (keys : List String) : Prop := ∀ k ∈ keys, ∃ f ∈ T.fields, f.name = k

/-- `read` is right for forward slices inside the file. -/
def Good {σ : Type} (rd : Read σ) (T : Table σ) : Prop :=
  ∀ keys, keys ≠ [] → keys.Nodup → T.Has keys → ∀ (a b : Nat) (c : Int), 0 < c → a ≤ b → b ≤ T.n →
    rd keys a b c = .ok (rowsAt (T.rows keys) (walk a b c))

/-- An opened file. -/
def IsFile {σ : Type} (o : Obj σ) (T : Table σ) : Prop :=
  ∃ rd itemsize, o = fileInit rd (.struct T.fields itemsize) T.n ∧ Good rd T

/-- `r` are the entries of `L` picked by a row index that file objects support: forward slices, integers, masks with a True,
lists of integers. -/
def Picks {α : Type} (L r : List α) : Index → Prop
  | .slice s => (∃ a b c, indices L.length s = some (a, b, c) ∧ 0 < c ∧ a ≤ b) ∧ pySlice L s = some r
  | .int j => -(L.length : Int) ≤ j ∧ j < L.length ∧
      ∃ x, r = [x] ∧ L[(if j < 0 then j + L.length else j).toNat]? = some x
  | .mask m => m.length = L.length ∧ true ∈ m ∧ r = (L.zip m).filterMap fun x => if x.2 then some x.1 else none
  | .ints int64 l => int64 = true ∧ l ≠ [] ∧ (∀ x ∈ l, -(L.length : Int) ≤ x ∧ x < L.length) ∧
      r.map some = l.map fun x => L[(if x < 0 then x + (L.length : Int) else x).toNat]?
  | .emptyList => False

/-! ## Rows -/

theorem rows_length {σ : Type} (T : Table σ) (keys : List String) : (T.rows keys).length = T.n := by
  simp [Table.rows]

theorem array_eq {σ : Type} (T : Table σ) (keys : List String) : T.array keys = (T.rows keys).map List.flatten := by
  simp [Table.array, Table.rows]

theorem range_getD {α : Type} (L : List α) (d : α) (n : Nat) (h : L.length = n) :
    (List.range n).map (fun i => L.getD i d) = L := by
  subst h
  apply List.ext_getElem?
  intro i
  by_cases hi : i < L.length
  · simp [hi]
  · simp [hi, List.getElem?_eq_none (not_lt.mp hi)]

theorem rows_one {σ : Type} (T : Table σ) (c : String) (h : (T.data c).length = T.n) :
    T.rows [c] = (T.data c).map fun x => [x] := by
  unfold Table.rows
  have : (fun i => [c].map fun k => (T.data k).getD i []) = fun i => (fun x : List σ => [x]) ((T.data c).getD i []) := by
    funext i; simp
  rw [this]
  rw [show (List.range T.n).map (fun i => (fun x : List σ => [x]) ((T.data c).getD i [])) =
      ((List.range T.n).map (fun i => (T.data c).getD i [])).map (fun x => [x]) by rw [List.map_map]; rfl]
  rw [range_getD _ _ _ h]

theorem array_one {σ : Type} (T : Table σ) (c : String) (h : (T.data c).length = T.n) : T.array [c] = T.data c := by
  rw [array_eq, rows_one T c h, List.map_map]
  have : (List.flatten ∘ fun x : List σ => [x]) = id := by funext x; simp
  rw [this, List.map_id]

theorem rowsAt_map {α β : Type} (f : α → β) (L : List α) (ps : List Int) : rowsAt (L.map f) ps = (rowsAt L ps).map f := by
  unfold rowsAt
  rw [List.map_filterMap]
  congr 1
  funext p
  by_cases h : p < 0 <;> simp [h]

theorem zip_mask_map {α β : Type} (f : α → β) (L : List α) (m : List Bool) :
    ((L.map f).zip m).filterMap (fun x => if x.2 then some x.1 else none) =
      ((L.zip m).filterMap fun x => if x.2 then some x.1 else none).map f := by
  induction L generalizing m with
  | nil => simp
  | cons a L ih =>
    cases m with
    | nil => simp
    | cons b m => cases b <;> simp [ih]

/-- Picking commutes with maps. -/
theorem picks_map {α β : Type} (f : α → β) (L : List α) (r' : List β) (i : Index) (h : Picks (L.map f) r' i) :
    ∃ r, Picks L r i ∧ r' = r.map f := by
  cases i with
  | emptyList => exact h.elim
  | slice s =>
    obtain ⟨⟨a, b, c, hi, hc, hab⟩, hp⟩ := h
    rw [List.length_map] at hi
    refine ⟨rowsAt L (walk a b c), ⟨⟨a, b, c, hi, hc, hab⟩, by unfold pySlice; rw [hi]; rfl⟩, ?_⟩
    unfold pySlice at hp
    rw [List.length_map, hi] at hp
    simp only [Option.map_some, Option.some.injEq] at hp
    rw [← hp, rowsAt_map]
  | int j =>
    obtain ⟨h1, h2, x, hx, hg⟩ := h
    rw [List.length_map] at h1 h2 hg
    rw [List.getElem?_map, Option.map_eq_some_iff] at hg
    obtain ⟨y, hy, hyx⟩ := hg
    exact ⟨[y], ⟨h1, h2, y, rfl, hy⟩, by rw [hx, ← hyx]; rfl⟩
  | mask m =>
    obtain ⟨h1, h2, h3⟩ := h
    rw [List.length_map] at h1
    exact ⟨_, ⟨h1, h2, rfl⟩, by rw [h3, zip_mask_map]⟩
  | ints b l =>
    obtain ⟨h1, h2, h3, h4⟩ := h
    rw [List.length_map] at h3 h4
    refine ⟨l.filterMap fun x => L[(if x < 0 then x + (L.length : Int) else x).toNat]?, ⟨h1, h2, h3, ?_⟩, ?_⟩
    · clear h4 h2
      induction l with
      | nil => rfl
      | cons x l ih =>
        have hx := h3 x (by simp)
        have : (if x < 0 then x + (L.length : Int) else x).toNat < L.length := by split <;> omega
        rw [List.filterMap_cons, List.getElem?_eq_getElem this]
        simp only [List.map_cons]
        rw [ih (fun y hy => h3 y (by simp [hy])), List.getElem?_eq_getElem this]
    · clear h2
      induction l generalizing r' with
      | nil => simpa using h4
      | cons x l ih =>
        have hx := h3 x (by simp)
        have : (if x < 0 then x + (L.length : Int) else x).toNat < L.length := by split <;> omega
        cases r' with
        | nil => simp at h4
        | cons y r' =>
          simp only [List.map_cons, List.cons.injEq, List.getElem?_map, List.getElem?_eq_getElem this, Option.map_some,
            Option.some.injEq] at h4
          rw [List.filterMap_cons, List.getElem?_eq_getElem this]
          simp only [List.map_cons, List.cons.injEq]
          refine ⟨h4.1, ih r' (fun y hy => h3 y (by simp [hy])) ?_⟩
          rw [h4.2]
          simp [List.getElem?_map]

/-- A good reader returns the picked rows. -/
theorem good_picks {σ : Type} (rd : Read σ) (T : Table σ) (hg : Good rd T) (keys : List String) (hk : keys ≠ [])
    (hn : keys.Nodup) (hh : T.Has keys) (i : Index) (r : List (List (List σ))) (hp : Picks (T.rows keys) r i) :
    readRows (rd keys) T.n i = .ok r := by
  have hlen := rows_length T keys
  have hreads : Reads (rd keys) (T.rows keys) := by
    intro a b hab hb
    rw [hlen] at hb
    rw [hg keys hk hn hh a b 1 (by omega) hab hb]
    have h1 := (everyStep_slice (T.rows keys) a b 1 (by omega) hab (by omega)).1
    rw [everyStep_one] at h1
    exact h1.symm
  cases i with
  | emptyList => exact hp.elim
  | slice s =>
    obtain ⟨⟨a, b, c, hi, hc, hab⟩, hp⟩ := hp
    rw [hlen] at hi
    obtain ⟨_, _, hb, _⟩ := indices_bounds _ s a b c hi
    have hb := hb hc
    unfold readRows FileIO.getitem
    dsimp only
    rw [if_neg (by omega)]
    simp only [Int.toNat_natCast, hi]
    have := hg keys hk hn hh a.toNat b.toNat c hc (by omega) (by omega)
    rw [Int.toNat_of_nonneg hb.1, Int.toNat_of_nonneg hb.2.2.1] at this
    rw [this]
    unfold pySlice at hp
    rw [hlen, hi] at hp
    simpa using hp
  | int j =>
    obtain ⟨h1, h2, x, hx, hget⟩ := hp
    rw [hlen] at h1 h2 hget
    have key : readRows (rd keys) T.n (.int j) =
        rd keys (if j < 0 then j + (T.n : Int) else j) ((if j < 0 then j + (T.n : Int) else j) + 1) 1 := by
      unfold readRows FileIO.getitem
      simp only [Int.toNat_natCast]
    rw [key]
    generalize hq : (if j < 0 then j + (T.n : Int) else j) = q at *
    have hq0 : 0 ≤ q ∧ q < T.n := by split at hq <;> omega
    have := hreads q.toNat (q.toNat + 1) (by omega) (by omega)
    push_cast at this
    rw [Int.toNat_of_nonneg hq0.1] at this
    rw [this, hx]
    congr 1
    have hlt : q.toNat < (T.rows keys).length := by omega
    rw [List.take_add_one, List.drop_append_of_le_length (by simp; omega), List.drop_of_length_le (by simp), hget]
    rfl
  | mask m =>
    obtain ⟨h1, h2, h3⟩ := hp
    have := mask_rows_partial (rd keys) (T.rows keys) hreads m h1 h2
    rw [h3]
    unfold readRows
    simp only [Int.toNat_natCast]
    rw [← hlen]; exact this
  | ints b l =>
    obtain ⟨h1, h2, h3, h4⟩ := hp
    subst h1
    obtain ⟨r', hr, hr'⟩ := ints_rows_partial (rd keys) (T.rows keys) hreads l h2 h3
    unfold readRows
    simp only [Int.toNat_natCast]
    rw [← hlen, hr]
    rw [← h4] at hr'
    exact congrArg _ (List.map_injective_iff.mpr (Option.some_injective _) hr')

/-! ## Selections -/

theorem get_mapM (d : DType) (s : List String) (fs : List Field) :
    s.mapM d.get = .ok fs ↔ List.Forall₂ (fun c f => d.get c = .ok f) s fs := by
  induction s generalizing fs with
  | nil =>
    cases fs with
    | nil => simp; rfl
    | cons a fs => simp; intro h; cases h
  | cons c s ih =>
    rw [List.mapM_cons]
    constructor
    · intro h
      cases hc : d.get c with
      | error e => rw [hc] at h; cases h
      | ok f =>
        rw [hc] at h
        cases hs : s.mapM d.get with
        | error e => rw [hs] at h; cases h
        | ok gs =>
          rw [hs] at h
          have h : (Except.ok (f :: gs) : Except Err (List Field)) = .ok fs := h
          injection h with h
          subst h
          exact List.Forall₂.cons hc ((ih gs).mp hs)
    · intro h
      cases h with
      | cons h1 h2 =>
        rw [h1, (ih _).mpr h2]; rfl

theorem get_name (d : DType) (c : String) (f : Field) (h : d.get c = .ok f) : f ∈ d.fields ∧ f.name = c := by
  unfold DType.get at h
  split at h
  · rename_i g hg
    injection h with h
    subst h
    exact ⟨List.mem_of_find?_eq_some hg, by simpa using List.find?_some hg⟩
  · cases h

theorem get_unique (d : DType) (hn : (d.fields.map (·.name)).Nodup) (f : Field) (hf : f ∈ d.fields) :
    d.get f.name = .ok f := by
  unfold DType.get
  cases hfind : d.fields.find? fun g => g.name = f.name with
  | none => exact absurd (List.find?_eq_none.mp hfind f hf) (by simp)
  | some g =>
    have h1 := List.mem_of_find?_eq_some hfind
    have h2 : g.name = f.name := by simpa using List.find?_some hfind
    have := List.inj_on_of_nodup_map hn h1 hf h2
    rw [this]

theorem forall₂_names {s : List String} {fs : List Field} {d : DType}
    (h : List.Forall₂ (fun c f => d.get c = .ok f) s fs) : fs.map (·.name) = s := by
  induction h with
  | nil => rfl
  | cons h1 _ ih => rw [List.map_cons, ih, (get_name _ _ _ h1).2]

/-- A selection succeeds for distinct names of columns; the view has these columns, in this order, and all rows. -/
theorem select_spec {σ : Type} (o : Obj σ) (T : Table σ) (ho : IsFile o T) (hT : T.WF) (s : List String) (hs : s ≠ [])
    (hn : s.Nodup) (hh : T.Has s) :
    ∃ v fs, select o s = .ok v ∧ columns v = .ok s ∧ v.size = T.n ∧ v.sub = [] ∧ v.dtype = packed fs ∧
      fs.map (·.name) = s ∧ (∀ f ∈ fs, f ∈ T.fields) ∧ ∃ rd, memown v = .ok rd ∧ Good rd T := by
  obtain ⟨rd, k, rfl, hg⟩ := ho
  have hf : ∃ fs, s.mapM (DType.struct T.fields k).get = .ok fs := by
    clear hs hn
    induction s with
    | nil => exact ⟨[], rfl⟩
    | cons c s ih =>
      obtain ⟨fs, hfs⟩ := ih (fun x hx => hh x (by simp [hx]))
      obtain ⟨f, hf, rfl⟩ := hh c (by simp)
      refine ⟨f :: fs, ?_⟩
      rw [List.mapM_cons, get_unique (.struct T.fields k) hT.nodup f hf, hfs]; rfl
  obtain ⟨fs, hfs⟩ := hf
  have h2 := (get_mapM _ _ _).mp hfs
  have hnames := forall₂_names h2
  refine ⟨⟨none, some rd, packed fs, T.n, none, []⟩, fs, ?_, ?_, rfl, rfl, rfl, hnames, ?_, rd, rfl, hg⟩
  · unfold select
    rw [if_neg hs, if_neg (by simp [fileInit, DType.names])]
    simp only [columns, fileInit, DType.names]
    rw [if_neg, hfs]
    · simp [hn, ownerOf]
    · simp only [Bool.not_eq_true', Bool.not_eq_false]
      rw [List.all_eq_true]
      intro c hc
      obtain ⟨f, hf, rfl⟩ := hh c hc
      rw [List.contains_iff_mem]
      exact List.mem_map_of_mem hf
  · simp [columns, packed, DType.names, hnames]
  · intro f hf
    obtain ⟨c, _, hc⟩ : ∃ c ∈ s, (DType.struct T.fields k).get c = .ok f := by
      clear hs hn hfs hnames hh
      induction h2 with
      | nil => simp at hf
      | @cons a b l1 l2 h1 _ ih =>
        rcases List.mem_cons.mp hf with rfl | hf
        · exact ⟨a, by simp, h1⟩
        · obtain ⟨c, hc, h⟩ := ih hf
          exact ⟨c, by simp [hc], h⟩
    exact (get_name _ _ _ hc).1

/-- The rows of any object that reads `keys` of the table from its owner. -/
theorem getitem_view {σ : Type} (v : Obj σ) (T : Table σ) (rd : Read σ) (keys : List String) (hm : memown v = .ok rd)
    (hg : Good rd T) (hc : columns v = .ok keys) (hsz : v.size = T.n) (hk : keys ≠ []) (hn : keys.Nodup) (hh : T.Has keys)
    (i : Index) (r : List (List (List σ))) (hp : Picks (T.rows keys) r i) :
    getitem v i [] = viewRows v keys r ∧
    (v.sub ≠ [] → ∀ j, getitem v i [j] = (viewRows v keys r).bind (applySub j)) := by
  have := good_picks rd T hg keys hk hn hh i r hp
  constructor
  · unfold getitem
    rw [if_neg (by simp), if_neg (by simp), hm, hc]
    simp only [hsz, this]
    cases viewRows v keys r <;> rfl
  · intro hsub j
    have hl : 0 < v.sub.length := List.length_pos_iff.mpr hsub
    unfold getitem
    rw [if_neg (by simp; omega), if_neg (by simp), hm, hc]
    simp only [hsz, this]
    cases viewRows v keys r <;> rfl

/-- C113, selections: `file[names][i]` holds the named columns, in this order, of the picked rows. -/
theorem select_rows {σ : Type} (o : Obj σ) (T : Table σ) (ho : IsFile o T) (hT : T.WF) (s : List String) (hs : s ≠ [])
    (hn : s.Nodup) (hh : T.Has s) :
    ∃ v, select o s = .ok v ∧ columns v = .ok s ∧ v.size = T.n ∧
      ∀ (i : Index) (r : List (List (List σ))), Picks (T.rows s) r i → getitem v i [] = .ok (.table s r) := by
  obtain ⟨v, fs, h1, h2, h3, h4, h5, h6, h7, rd, h8, h9⟩ := select_spec o T ho hT s hs hn hh
  refine ⟨v, h1, h2, h3, ?_⟩
  intro i r hp
  rw [(getitem_view v T rd s h8 h9 h2 h3 hs hn hh i r hp).1]
  unfold viewRows
  rw [h5]
  cases fs with
  | nil => rw [← h6] at hs; simp at hs
  | cons f fs => rfl

/-- The whole file is a view of all its columns. -/
theorem file_rows {σ : Type} (o : Obj σ) (T : Table σ) (ho : IsFile o T) (hT : T.WF) (hne : T.fields ≠ [])
    (i : Index) (r : List (List (List σ))) (hp : Picks (T.rows (T.fields.map (·.name))) r i) :
    getitem o i [] = .ok (.table (T.fields.map (·.name)) r) := by
  obtain ⟨rd, k, rfl, hg⟩ := ho
  rw [(getitem_view _ T rd (T.fields.map (·.name)) rfl hg rfl rfl (by simpa using hne) hT.nodup
    (fun k hk => by simpa using hk) i r hp).1]
  unfold viewRows
  cases hf : T.fields with
  | nil => exact absurd hf hne
  | cons f fs => simp [fileInit, DType.fields, hf]

/-- C113: a selection of a selection is the selection of the file itself. -/
theorem select_select {σ : Type} (o v : Obj σ) (s t : List String) (h : select o s = .ok v) (ht : ∀ c ∈ t, c ∈ s) :
    select v t = select o t := by
  unfold select at h
  by_cases hs : s = []
  · rw [if_pos hs] at h; cases h
  rw [if_neg hs] at h
  by_cases hnm : o.dtype.names = none
  · rw [if_pos hnm] at h; cases h
  rw [if_neg hnm] at h
  cases hc : columns o with
  | error e => rw [hc] at h; cases h
  | ok keys =>
    rw [hc] at h
    dsimp only at h
    by_cases hin : (s.all fun c => keys.contains c) = true
    · rw [hin] at h
      simp only [Bool.not_true, Bool.false_eq_true, if_false] at h
      cases hm : s.mapM o.dtype.get with
      | error e => rw [hm] at h; cases h
      | ok fs =>
        rw [hm] at h
        dsimp only at h
        by_cases hn : s.Nodup
        · simp only [hn, decide_true, Bool.not_true, Bool.false_eq_true, if_false] at h
          injection h with h
          subst h
          have h2 := (get_mapM _ _ _).mp hm
          have hnames := forall₂_names h2
          have hget : ∀ c ∈ s, (packed fs).get c = o.dtype.get c := by
            intro c hc
            rw [← hnames] at hc hn
            obtain ⟨f, hf, rfl⟩ := List.mem_map.mp hc
            rw [get_unique (packed fs) (by simpa [packed, DType.fields] using hn) f (by simpa [packed, DType.fields] using hf)]
            clear hnames hn hm hin hs ht hc
            induction h2 with
            | nil => simp at hf
            | @cons a b l1 l2 h1 _ ih =>
              rcases List.mem_cons.mp hf with rfl | hf
              · rw [(get_name _ _ _ h1).2, h1]
              · exact ih hf
          have hmap : t.mapM (packed fs).get = t.mapM o.dtype.get := by
            clear hm
            induction t with
            | nil => rfl
            | cons c t ih =>
              rw [List.mapM_cons, List.mapM_cons, hget c (ht c (by simp)), ih (fun x hx => ht x (by simp [hx]))]
          have hkeys : ∀ c ∈ t, keys.contains c = true := fun c hc => List.all_eq_true.mp hin c (ht c hc)
          unfold select
          by_cases hte : t = []
          · rw [if_pos hte, if_pos hte]
          rw [if_neg hte, if_neg hte, if_neg hnm, if_neg (by simp [packed, DType.names]), hc]
          simp only [columns, packed, DType.names, hnames]
          rw [if_neg, if_neg]
          · rw [show (DType.struct fs (fs.map Field.bytes).sum) = packed fs from rfl, hmap]
            cases t.mapM o.dtype.get with
            | error e => rfl
            | ok gs =>
              dsimp only
              by_cases htn : t.Nodup
              · simp only [htn, decide_true, Bool.not_true, Bool.false_eq_true, if_false]
                congr 1
                simp only [ownerOf]
                cases hb : o.base with
                | some b => simp
                | none => cases ho : o.own <;> simp
              · simp [htn]
          · simp only [Bool.not_eq_true', Bool.not_eq_false]
            exact List.all_eq_true.mpr hkeys
          · simp only [Bool.not_eq_true', Bool.not_eq_false]
            exact List.all_eq_true.mpr fun c hc => by simpa using ht c hc
        · simp [hn] at h
    · simp only [Bool.not_eq_true] at hin
      rw [hin] at h
      simp at h

/-- C113: a column of a selection is the column of the file. -/
theorem column_select {σ : Type} (o v : Obj σ) (s : List String) (c : String) (h : select o s = .ok v) (hc : c ∈ s) :
    column v c = column o c := by
  unfold column
  rw [select_select o v s [c] h (by simpa using hc)]

/-- Wrong selections. -/
theorem select_rejects {σ : Type} (o : Obj σ) (keys s : List String) (hc : columns o = .ok keys) :
    (select o [] = .error .indexError) ∧
    (o.dtype.names = none → select o s = .error .indexError) ∧
    ((∃ c ∈ s, c ∉ keys) → select o s = .error .indexError) := by
  refine ⟨by simp [select], ?_, ?_⟩
  · intro h
    unfold select
    by_cases hs : s = []
    · rw [if_pos hs]
    · rw [if_neg hs, if_pos h]
  · rintro ⟨c, h1, h2⟩
    unfold select
    rw [if_neg (by rintro rfl; simp at h1)]
    by_cases h : o.dtype.names = none
    · rw [if_pos h]
    · rw [if_neg h, hc]
      simp only
      rw [if_pos]
      simp only [Bool.not_eq_true', List.all_eq_false]
      exact ⟨c, h1, by simpa using h2⟩

end NBK.FileObj
