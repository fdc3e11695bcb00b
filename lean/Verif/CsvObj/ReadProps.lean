import Verif.CsvObj.Props

set_option linter.unusedSimpArgs false

/-!
# C114: the values of an opened CSV file
-/
namespace NBK.CsvObj
open NBK.FileIO
variable {β : Type} [DecidableEq β]

/-- A cell can be an entry of a column of the type. -/
def Fits : DT → Cell → Prop
  | .i8, c => ∃ n : Int, c = .int n
  | .f8, c => ∀ s : String, c ≠ .text s
  | .obj, _ => True

/-- The entry of a column. -/
def entry : DT → Cell → Item
  | .i8, .int n => .i n
  | .f8, .int n => .f n
  | .f8, .flt q => .f q
  | .obj, c => .obj c
  | _, _ => .nan

theorem cast_fits (d : DT) (c : Cell) (h : Fits d c) : castCell d c = .ok (entry d c) := by
  cases d with
  | i8 => obtain ⟨n, rfl⟩ := h; rfl
  | f8 =>
    cases c with
    | text s => exact absurd rfl (h s)
    | _ => rfl
  | obj => cases c <;> rfl

theorem view_entry (d : DT) (c : Cell) (h : Fits d c) : viewAs d (entry d c) = .ok (entry d c) := by
  cases d with
  | i8 => obtain ⟨n, rfl⟩ := h; rfl
  | f8 =>
    cases c with
    | text s => exact absurd rfl (h s)
    | _ => rfl
  | obj => cases c <;> rfl

/-- The type of a column of the object. -/
def typ (o : File β) (c : String) : DT := (dictGet o.dtype c).getD .obj

/-- The row of some columns. -/
def rowOf (o : File β) (columns : List String) (r : List Cell) : List Item := columns.map fun c => entry (typ o c) (cellAt o.names r c)

theorem dictGet_mem {γ : Type} (l : List (String × γ)) (hn : (l.map Prod.fst).Nodup) (p : String × γ) (hp : p ∈ l) : dictGet l p.1 = some p.2 := by
  induction l with
  | nil => cases hp
  | cons x l ih =>
    rw [List.map_cons, List.nodup_cons] at hn
    unfold dictGet
    rw [List.find?_cons]
    rcases List.mem_cons.mp hp with rfl | hp
    · simp
    · have : x.1 ≠ p.1 := fun h => hn.1 (h ▸ List.mem_map.mpr ⟨p, hp, rfl⟩)
      simp only [this, decide_false]
      exact ih hn.2 hp

theorem dictGet_map' {γ δ : Type} (l : List (String × γ)) (f : String × γ → δ) (c : String) :
    dictGet (l.map fun p => (p.1, f p)) c = (l.find? fun p => p.1 = c).map f := by
  unfold dictGet
  rw [List.find?_map]
  cases h : l.find? ((fun p : String × δ => decide (p.1 = c)) ∘ fun p => (p.1, f p)) with
  | none =>
    have : (l.find? fun p => decide (p.1 = c)) = none := h
    rw [this]; rfl
  | some x =>
    have : (l.find? fun p => decide (p.1 = c)) = some x := h
    rw [this]; rfl

/-- A block whose cells fit. -/
theorem frame_ok (nl : β) (split : Sep → List β → List Cell) (o : File β) (p : Csv.Part β) (he : o.engine = .c)
    (hlen : o.usecols = true ∨ ∀ l ∈ Csv.parse nl o.skipBlank p, (split o.sep l).length ≤ o.names.length)
    (hfit : ∀ d ∈ o.dtype, ∀ l ∈ Csv.parse nl o.skipBlank p, Fits d.2 (cellAt o.names (split o.sep l) d.1)) :
    frame nl split o p = .ok ((Csv.parse nl o.skipBlank p).length,
      o.dtype.map fun d => (d.1, (Csv.parse nl o.skipBlank p).map fun l => entry d.2 (cellAt o.names (split o.sep l) d.1))) := by
  unfold frame
  dsimp only
  rw [if_neg]
  · have : (o.dtype.mapM fun d => (convert o.engine d.2 (colCells o.names ((Csv.parse nl o.skipBlank p).map (split o.sep)) d.1)).map
        fun l => (d.1, l)) = .ok (o.dtype.map fun d => (d.1, (Csv.parse nl o.skipBlank p).map fun l =>
        entry d.2 (cellAt o.names (split o.sep l) d.1))) := by
      apply mapM_ok
      intro d hd
      unfold convert colCells
      rw [if_pos he, List.map_map, List.mapM_map]
      rw [mapM_ok _ (fun l => entry d.2 (cellAt o.names (split o.sep l) d.1))]
      · rfl
      · intro l hl
        exact cast_fits _ _ (hfit d hd l hl)
    rw [this]
    simp
  · rintro ⟨-, h1, h2⟩
    rcases hlen with h | h
    · rw [h] at h1; cases h1
    · unfold tooLong at h2
      split at h2
      · cases h2
      · rename_i r rs hr
        rw [List.any_eq_true] at h2
        obtain ⟨x, hx, hx'⟩ := h2
        have hm : x ∈ (Csv.parse nl o.skipBlank p).map (split o.sep) := by rw [hr]; simp [hx]
        obtain ⟨l, hl, rfl⟩ := List.mem_map.mp hm
        have := h l hl
        simp only [decide_eq_true_eq] at hx'
        omega

theorem records_ok (o : File β) (hn : (o.dtype.map Prod.fst).Nodup) (L : List (List Cell)) (columns : List String)
    (hc : ∀ c ∈ columns, c ∈ o.dtype.map Prod.fst) :
    records L.length (o.dtype.map fun d => (d.1, L.map fun r => entry d.2 (cellAt o.names r d.1))) columns = .ok (L.map (rowOf o columns)) := by
  unfold records
  have h : columns.mapM (getCol (o.dtype.map fun d => (d.1, L.map fun r => entry d.2 (cellAt o.names r d.1)))) =
      .ok (columns.map fun c => L.map fun r => entry (typ o c) (cellAt o.names r c)) := by
    apply mapM_ok
    intro c hcm
    obtain ⟨d, hd, rfl⟩ := List.mem_map.mp (hc c hcm)
    have hg := dictGet_mem o.dtype hn d hd
    rw [getCol, dictGet_map']
    unfold dictGet at hg
    obtain ⟨x, hx, hx'⟩ := Option.map_eq_some_iff.mp hg
    rw [hx]
    have hx1 : x.1 = d.1 := by simpa using List.find?_some hx
    have ht : typ o d.1 = d.2 := by rw [typ, dictGet_mem o.dtype hn d hd]; rfl
    simp only [Option.map_some]
    rw [ht, hx1, hx']
  rw [h]
  simp only [Except.ok.injEq]
  apply List.ext_getElem?
  intro i
  rw [List.getElem?_map, List.getElem?_map]
  by_cases hi : i < L.length
  · rw [List.getElem?_range hi, List.getElem?_eq_getElem hi]
    simp only [Option.map_some, List.map_map, rowOf]
    congr 1
    apply List.map_congr_left
    intro c _
    simp only [Function.comp]
    rw [List.getD_eq_getElem?_getD, List.getElem?_map, List.getElem?_eq_getElem hi]
    rfl
  · rw [List.getElem?_eq_none (by simpa using hi), List.getElem?_eq_none (by simpa using hi)]
    rfl

/-- The rows of the whole file, split into cells. -/
def fileRows (nl : β) (split : Sep → List β → List Cell) (bytes : List β) (g : Cfg) : List (List Cell) :=
  (Csv.parse nl g.skipBlank ⟨bytes, g.skiprows.count, g.nrows.parts⟩).map (split (sepOf g))

/-- The conditions under which the lines of the file are counted right (see C28) and all the rows, not only the first ones, are as the types and
names say. -/
structure Regular (nl : β) (split : Sep → List β → List Cell) (bytes : List β) (g : Cfg) (o : File β) : Prop where
  engine : g.engine = .c
  blocks : Csv.GoodBlocks nl g.skipBlank true g.skiprows.count (Csv.blocks nl bytes g.blocksize)
  nrows : ∀ n, g.nrows = .num n → Csv.GoodNrows nl g.skipBlank g.skiprows.count n (Csv.blocks nl bytes g.blocksize)
  cells : g.usecols.isSome ∨ ∀ r ∈ fileRows nl split bytes g, r.length ≤ o.names.length
  fits : ∀ d ∈ o.dtype, ∀ r ∈ fileRows nl split bytes g, Fits d.2 (cellAt o.names r d.1)

/-- C114 (partial): of a regular file, `read(columns, start, stop, step)` returns the entries of the rows, for any columns of the object in any order. -/
theorem read_partial (nl : β) (split : Sep → List β → List Cell) (bytes : List β) (names : List String) (g : Cfg) (o : File β)
    (h : openCsv nl split bytes names g = .ok o) (hr : Regular nl split bytes g o) (columns : List String)
    (hc : ∀ c ∈ columns, c ∈ o.dtype.map Prod.fst) :
    o.size = ((fileRows nl split bytes g).length : Int) ∧
    ∀ start stop : Nat, start ≤ stop → stop ≤ (fileRows nl split bytes g).length → ∀ step : Int,
      read nl split o columns start stop step =
        everyStep ((((fileRows nl split bytes g).map (rowOf o columns)).take stop).drop start) step := by
  obtain ⟨h1, h2, h3, h4, h5, h6⟩ := (open_iff nl split bytes names g).mp ⟨o, h⟩
  obtain ⟨f1, f2, f3, f4, f5, f6, f7, f8, -⟩ := open_fields nl split bytes names g o h
  have hnod : (o.dtype.map Prod.fst).Nodup := by rw [(open_types nl split bytes names g o h).1]; exact h3
  have hbytes : bytes ≠ [] := by
    intro hb
    obtain ⟨r, rs, e, -⟩ := h2.first
    subst hb
    have : Csv.parse nl g.skipBlank ⟨[], g.skiprows.count, g.nrows.verify⟩ = [] := by
      unfold Csv.parse Csv.dataLines
      cases g.nrows.verify <;> simp [Csv.lines]
    rw [firstRows, this] at e
    cases e
  have hn : ∀ n, g.nrows.parts = some n → Csv.GoodNrows nl g.skipBlank g.skiprows.count n (Csv.blocks nl bytes g.blocksize) := by
    intro n hn
    cases hg : g.nrows with
    | num m =>
      rw [hg] at hn
      have : m = n := by simpa [Nrows.parts] using hn
      exact hr.nrows n (by rw [hg, this])
    | _ => rw [hg] at hn; simp [Nrows.parts] at hn
  obtain ⟨s1, s2, s3⟩ := Csv.csv_sizes_partial nl bytes g.blocksize (Nat.pos_of_ne_zero h5) g.skipBlank g.skiprows.count g.nrows.parts hbytes
    hr.blocks hn
  rw [← f7] at s1 s2 s3
  have hmem : ∀ p ∈ o.parts, ∀ l ∈ Csv.parse nl g.skipBlank p.1, split (sepOf g) l ∈ fileRows nl split bytes g := by
    intro p hp l hl
    unfold fileRows
    rw [← s2]
    exact List.mem_map.mpr ⟨l, List.mem_flatten.mpr ⟨_, List.mem_map.mpr ⟨p, hp, rfl⟩, hl⟩, rfl⟩
  refine ⟨by rw [f8, s3, fileRows, List.length_map], ?_⟩
  intro start stop hss hst step
  have hpart : ∀ p ∈ o.parts, Reads (readPart nl split o columns p.1)
      ((Csv.parse nl g.skipBlank p.1).map fun l => rowOf o columns (split (sepOf g) l)) := by
    intro p hp a b hab hb
    have hf := frame_ok nl split o p.1 (f5.trans hr.engine)
      (by
        rcases hr.cells with hu | hu
        · left; rw [f3]; exact hu
        · right
          intro l hl
          rw [f6] at hl
          rw [f4]
          exact hu _ (hmem p hp l hl))
      (by
        intro d hd l hl
        rw [f6] at hl
        rw [f4]
        exact hr.fits d hd _ (hmem p hp l hl))
    unfold readPart
    rw [hf]
    dsimp only
    have hrec := records_ok o hnod ((Csv.parse nl o.skipBlank p.1).map (split o.sep)) columns hc
    simp only [List.length_map, List.map_map, Function.comp_def] at hrec
    rw [hrec]
    dsimp only
    rw [PySlice.pySlice_nat, f6, f4]
  have hne : o.parts ≠ [] := by
    intro he
    rw [he] at s2
    obtain ⟨r, rs, e, -⟩ := h2.first
    have hbl : Csv.blocks nl bytes g.blocksize ≠ [] := by
      intro hb
      have := Csv.blocks_flatten nl bytes g.blocksize (Nat.pos_of_ne_zero h5)
      rw [hb] at this
      exact hbytes this.symm
    obtain ⟨b, bl, hb⟩ := List.exists_cons_of_ne_nil hbl
    rw [f7, Csv.makePartitions, hb] at he
    cases hg : g.nrows.parts with
    | none => rw [hg] at he; simp [Csv.partitionLoop] at he
    | some n => rw [hg] at he; simp only [Csv.partitionLoop] at he; split at he <;> (try split at he) <;> simp at he
  have hst' := stack_reads (o.parts.map fun p => (p.2.toNat, readPart nl split o columns p.1))
    (o.parts.map fun p => (Csv.parse nl g.skipBlank p.1).map fun l => rowOf o columns (split (sepOf g) l)) (by simpa using hne)
    (by
      simp only [List.map_map]
      apply List.map_congr_left
      intro p hp
      simp only [Function.comp]
      rw [s1 p hp]
      simp)
    (by
      intro k n rd rows hk hrw
      rw [List.getElem?_map] at hk hrw
      cases hp : o.parts[k]? with
      | none => rw [hp] at hk; cases hk
      | some p =>
        rw [hp] at hk hrw
        simp only [Option.map_some, Option.some.injEq, Prod.mk.injEq] at hk hrw
        obtain ⟨_, rfl⟩ := hk
        subst hrw
        exact hpart p (List.mem_of_getElem? hp))
    start stop hss
  have hfl : (o.parts.map fun p => (Csv.parse nl g.skipBlank p.1).map fun l => rowOf o columns (split (sepOf g) l)).flatten =
      (fileRows nl split bytes g).map (rowOf o columns) := by
    unfold fileRows
    rw [← s2, List.map_map, List.map_flatten, List.map_map]
    rfl
  rw [hfl] at hst'
  have := hst' (by rw [List.length_map]; exact hst) 1
  rw [everyStep_one] at this
  unfold read
  rw [this]
  dsimp only
  rw [if_pos (f5.trans hr.engine)]

/-- What is picked is in the list. -/
theorem picks_mem {α : Type} (L r : List α) (i : Index) (h : FileObj.Picks L r i) : ∀ x ∈ r, x ∈ L := by
  intro x hx
  cases i with
  | emptyList => exact h.elim
  | slice s =>
    obtain ⟨⟨a, b, c, hi, -⟩, hp⟩ := h
    unfold PySlice.pySlice at hp
    rw [hi] at hp
    simp only [Option.map_some, Option.some.injEq] at hp
    rw [← hp] at hx
    unfold PySlice.rowsAt at hx
    obtain ⟨j, -, hj⟩ := List.mem_filterMap.mp hx
    split at hj
    · cases hj
    · exact List.mem_of_getElem? hj
  | int j =>
    obtain ⟨-, -, y, rfl, hg⟩ := h
    simp only [List.mem_singleton] at hx
    subst hx
    exact List.mem_of_getElem? hg
  | mask m =>
    obtain ⟨-, -, rfl⟩ := h
    obtain ⟨p, hp, hp'⟩ := List.mem_filterMap.mp hx
    split at hp'
    · rw [← Option.some.inj hp']
      exact (List.of_mem_zip hp).1
    · cases hp'
  | ints b l =>
    obtain ⟨-, -, -, h4⟩ := h
    have : some x ∈ r.map some := List.mem_map.mpr ⟨x, hx, rfl⟩
    rw [h4] at this
    obtain ⟨j, -, hj⟩ := List.mem_map.mp this
    exact List.mem_of_getElem? hj

/-- A reader that is right for forward slices returns the picked rows. -/
theorem reader_picks {ρ : Type} (rd : Reader ρ) (L : List ρ)
    (hg : ∀ (a b : Nat) (c : Int), 0 < c → a ≤ b → b ≤ L.length → rd a b c = .ok (PySlice.rowsAt L (PySlice.walk a b c)))
    (i : Index) (r : List ρ) (hp : FileObj.Picks L r i) : getitem rd L.length i = .ok r := by
  have hreads : Reads rd L := by
    intro a b hab hb
    rw [hg a b 1 (by omega) hab hb]
    have h1 := (everyStep_slice L a b 1 (by omega) hab (by omega)).1
    rw [everyStep_one] at h1
    exact h1.symm
  cases i with
  | emptyList => exact hp.elim
  | slice s =>
    obtain ⟨⟨a, b, c, hi, hc, hab⟩, hp⟩ := hp
    obtain ⟨_, _, hb, _⟩ := PySlice.indices_bounds _ s a b c hi
    have hb := hb hc
    unfold FileIO.getitem
    dsimp only
    simp only [hi]
    have := hg a.toNat b.toNat c hc (by omega) (by omega)
    rw [Int.toNat_of_nonneg hb.1, Int.toNat_of_nonneg hb.2.2.1] at this
    rw [this]
    unfold PySlice.pySlice at hp
    rw [hi] at hp
    simpa using hp
  | int j =>
    obtain ⟨h1, h2, x, hx, hget⟩ := hp
    have key : getitem rd L.length (.int j) =
        rd (if j < 0 then j + (L.length : Int) else j) ((if j < 0 then j + (L.length : Int) else j) + 1) 1 := rfl
    rw [key]
    generalize hq : (if j < 0 then j + (L.length : Int) else j) = q at *
    have hq0 : 0 ≤ q ∧ q < L.length := by split at hq <;> omega
    have := hreads q.toNat (q.toNat + 1) (by omega) (by omega)
    push_cast at this
    rw [Int.toNat_of_nonneg hq0.1] at this
    rw [this, hx]
    congr 1
    have hlt : q.toNat < L.length := by omega
    rw [List.take_add_one, List.drop_append_of_le_length (by simp; omega), List.drop_of_length_le (by simp), hget]
    rfl
  | mask m =>
    obtain ⟨h1, h2, h3⟩ := hp
    rw [h3]
    exact mask_rows_partial rd L hreads m h1 h2
  | ints b l =>
    obtain ⟨h1, h2, h3, h4⟩ := hp
    subst h1
    obtain ⟨r', hr, hr'⟩ := ints_rows_partial rd L hreads l h2 h3
    rw [hr]
    rw [← h4] at hr'
    exact congrArg _ (List.map_injective_iff.mpr (Option.some_injective _) hr')

/-- C114 (partial): of a regular file, `file[name][i]` holds the entries of the column, for every supported index (slices forward, integers,
masks, lists of integers): whole numbers as they are, in a float column as floats, and NaN where there is nothing. -/
theorem column_partial (nl : β) (split : Sep → List β → List Cell) (bytes : List β) (names : List String) (g : Cfg) (o : File β)
    (h : openCsv nl split bytes names g = .ok o) (hr : Regular nl split bytes g o) (d : String × DT) (hd : d ∈ o.dtype)
    (i : Index) (r : List Item) (hp : FileObj.Picks ((fileRows nl split bytes g).map fun x => entry d.2 (cellAt names x d.1)) r i) :
    column nl split o d.1 i = .ok r := by
  have hnod : (o.dtype.map Prod.fst).Nodup := by
    rw [(open_types nl split bytes names g o h).1]
    exact ((open_iff nl split bytes names g).mp ⟨o, h⟩).2.2.1
  have hnm : o.names = names := (open_fields nl split bytes names g o h).1
  have ht : typ o d.1 = d.2 := by rw [typ, dictGet_mem o.dtype hnod d hd]; rfl
  obtain ⟨hs, hrd⟩ := read_partial nl split bytes names g o h hr [d.1] (by
    intro c hc
    rw [List.mem_singleton] at hc
    subst hc
    exact List.mem_map.mpr ⟨d, hd, rfl⟩)
  have hrow : ∀ x, rowOf o [d.1] x = [entry d.2 (cellAt names x d.1)] := by
    intro x
    simp [rowOf, ht, hnm]
  have hL : (fileRows nl split bytes g).map (fun x => entry d.2 (cellAt names x d.1)) =
      ((fileRows nl split bytes g).map (rowOf o [d.1])).map fun y => y.headD .nan := by
    rw [List.map_map]
    apply List.map_congr_left
    intro x _
    simp [hrow]
  rw [hL] at hp
  obtain ⟨r', hp', rfl⟩ := FileObj.picks_map _ _ _ _ hp
  unfold column
  rw [dictGet_mem o.dtype hnod d hd]
  dsimp only
  have hlen : o.size.toNat = ((fileRows nl split bytes g).map (rowOf o [d.1])).length := by rw [hs]; simp
  rw [hlen, reader_picks (read nl split o [d.1]) _ _ i r' hp']
  · dsimp only
    apply mapM_ok
    intro y hy
    obtain ⟨x, hx, rfl⟩ := List.mem_map.mp (picks_mem _ _ _ hp' y hy)
    rw [hrow]
    exact view_entry _ _ (by have := hr.fits d hd x hx; rwa [hnm] at this)
  · intro a b c hc hab hb
    rw [hrd a b hab (by simpa using hb) c]
    exact (everyStep_slice _ a b c hc hab hb).1

end NBK.CsvObj
