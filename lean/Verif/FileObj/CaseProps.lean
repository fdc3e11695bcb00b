import Verif.FileObj.OpenProps

/-!
# C113: where file objects go wrong, and a worked case
-/
set_option linter.unusedSimpArgs false
namespace NBK.FileObj
open NBK.FileIO NBK.PySlice

/-- C113 is false for columns whose items are matrices: `file[name]` claims the shape `(size, p, q)`, but returns `q` times as
many rows of `p` numbers, and its dask array cannot be computed. -/
theorem matrix_wrong {σ : Type} (dflt : Nat) (o : Obj σ) (T : Table σ) (ho : IsFile o T) (hT : T.WF) (f : Field) (hf : f ∈ T.fields)
    (p q : Nat) (hsh : f.shape = [p, q]) (hp : 0 < p) (bs : Option Nat) (hbs : 0 < bs.getD dflt) :
    ∃ v, column o f.name = .ok v ∧ v.size = T.n ∧ v.sub = [p, q] ∧
      (∃ rows, getitem v (.slice ⟨none, none, none⟩) [] = .ok (.arr2 p rows) ∧ rows.length = T.n * q) ∧
      getDask dflt o f.name bs = .ok (v, bs.getD dflt) ∧ compute v (bs.getD dflt) = .error .indexError := by
  obtain ⟨w, h1, h2, _⟩ := asarray_spec o T ho hT [f.name] (by simp) (by simp) (has_one T f hf)
  obtain ⟨c, g, v, hc, hg, hgc, hv, hA⟩ := h2 ⟨f.name, f, rfl, hf, rfl⟩
  have hgf : g = f := by
    have : g.name = f.name := by rw [hgc]; simpa using hc.symm
    exact List.inj_on_of_nodup_map hT.nodup hg hf this
  subst hgf
  have hcol : column o g.name = .ok v := by unfold column; rw [h1]; exact hv
  obtain ⟨⟨rd, hm, hgd⟩, hcs, hsz, ⟨b, hd⟩, hsub⟩ := hA
  rw [hsh] at hsub
  have hlen := hT.len g hg
  refine ⟨v, hcol, hsz, hsub, ?_, ?_, ?_⟩
  · have hpick : Picks (T.rows [g.name]) (T.rows [g.name]) (.slice ⟨none, none, none⟩) := by
      have hi : ∀ n : Nat, indices n ⟨none, none, none⟩ = some (0, (n : Int), 1) := by intro n; simp [indices]
      refine ⟨⟨0, _, 1, hi _, by omega, by omega⟩, ?_⟩
      unfold pySlice
      rw [hi]
      simp only [Option.map_some, Option.some.injEq]
      have := everyStep_slice (T.rows [g.name]) 0 (T.rows [g.name]).length 1 (by omega) (by omega) (by omega)
      rw [everyStep_one] at this
      have h3 := this.1
      injection h3 with h3
      rw [Nat.cast_zero] at h3
      rw [← h3]; simp
    refine ⟨items p (T.data g.name).flatten, ?_, ?_⟩
    · rw [(getitem_view v T rd [g.name] hm hgd hcs hsz (by simp) (by simp) (has_one T g hg) _ _ hpick).1]
      unfold viewRows
      rw [hd]
      simp only [DType.fields, hsub]
      have hfl : (T.rows [g.name]).flatten.flatten = (T.data g.name).flatten := by
        rw [flatten_flatten_map, ← array_eq, array_one T _ hlen]
      rw [hfl]
      unfold reshape2
      rw [if_neg]
      rw [flatten_length (p * q) _ (by intro x hx; rw [hT.item g hg x hx, hsh]; simp)]
      rintro (h | h)
      · omega
      · apply h
        rw [show (T.data g.name).length * (p * q) = p * ((T.data g.name).length * q) by ring]
        simp
    · have hk : ∀ (k : Nat) (l : List σ), l.length = k * p → (items p l).length = k := by
        intro k
        induction k with
        | zero =>
          intro l hl
          rw [items, dif_neg (by omega)]; rfl
        | succ k ih =>
          intro l hl
          have e : (k + 1) * p = k * p + p := by ring
          rw [items, dif_pos (by omega), List.length_cons, ih _ (by rw [List.length_drop]; omega)]
      apply hk
      rw [flatten_length (p * q) _ (by intro x hx; rw [hT.item g hg x hx, hsh]; simp), hlen]
      ring
  · unfold getDask
    obtain ⟨rd', k, rfl, _⟩ := ho
    simp only [columns, fileInit, DType.names]
    rw [if_neg (by simpa using ⟨g, hg, rfl⟩)]
    unfold fileInit at hcol
    rw [hcol]
  · unfold compute
    rw [if_neg (by rw [hsz]; omega), hsub]
    simp [getitem, hsub]

/-- C113 is false after `asarray`: the view still lists its columns, but none can be taken, also not by `get_dask`. -/
theorem dask_after_asarray {σ : Type} (dflt : Nat) (o x : Obj σ) (h : asarray o = .ok x) (keys : List String) (c : String)
    (hk : columns o = .ok keys) (hc : c ∈ keys) (bs : Option Nat) :
    columns x = .ok keys ∧ getDask dflt x c bs = .error .indexError := by
  have hsel := (asarray_rejects o).2.2.2 x h
  have hcol : columns x = .ok keys := by
    unfold asarray at h
    split at h
    · cases h
    · split at h
      · cases h
      · split at h
        · cases h
        · rw [hk] at h
          injection h with h
          subst h
          rfl
  refine ⟨hcol, ?_⟩
  unfold getDask column
  rw [hcol]
  simp only
  rw [if_neg (by simpa using hc), hsel]

/-- C113 is false for aligned types: the size of a row counts the gaps, which a column-major file does not have. Columns of `n`
bytes and `n` 4-byte numbers, `5 n` bytes, are refused by the aligned type of 8 bytes unless 8 divides `n`. -/
theorem aligned_wrong {β : Type} (bytes : List β) (n : Nat) (h : bytes.length = 5 * n) (hn : n % 8 ≠ 0) :
    openBinary bytes (.struct [⟨"a", ⟨"u1", 1⟩, []⟩, ⟨"b", ⟨"f4", 4⟩, []⟩] 8) .infer 0 .infer = .error .valueError := by
  apply (binary_rejects bytes _ 0).2.2.2.2
  rintro ⟨k, hk⟩
  rw [h] at hk
  simp only [DType.itemsize] at hk
  push_cast at hk
  omega

/-- With eight rows in the file, five are found. -/
theorem aligned_size {β : Type} (bytes : List β) (h : bytes.length = 40) :
    ∃ o, openBinary bytes (.struct [⟨"a", ⟨"u1", 1⟩, []⟩, ⟨"b", ⟨"f4", 4⟩, []⟩] 8) .infer 0 .infer = .ok o ∧ o.size = 5 := by
  unfold openBinary binSize getsize
  rw [h]
  exact ⟨_, rfl, rfl⟩

/-- A header larger than the file gives a negative size without an error if the difference is a whole number of rows. -/
theorem header_too_large {β : Type} (bytes : List β) (f : Field) (k header : Nat) (hf : 0 < f.bytes)
    (h : header = bytes.length + k * f.bytes) :
    ∃ o, openBinary bytes (packed [f]) .infer header .infer = .ok o ∧ o.size = -(k : Int) := by
  have hg : getsize bytes.length header (packed [f]).itemsize = .ok (-(k : Int)) := by
    unfold getsize
    have e0 : (packed [f]).itemsize = f.bytes := by simp [packed, DType.itemsize]
    rw [e0]
    have e : (bytes.length : Int) - header = (-(k : Int)) * f.bytes := by rw [h]; push_cast; ring
    simp only [e]
    have e1 : Int.fmod (-(k : Int) * (f.bytes : Int)) (f.bytes : Int) = 0 := by
      rw [Int.fmod_eq_emod_of_nonneg _ (by omega)]; simp
    have e2 : Int.fdiv (-(k : Int) * (f.bytes : Int)) (f.bytes : Int) = -(k : Int) := by
      rw [Int.fdiv_eq_ediv_of_nonneg _ (by omega), Int.mul_ediv_cancel _ (by omega)]
    rw [e1, e2]
    simp
  unfold openBinary binSize
  simp only [hg]
  exact ⟨_, rfl, rfl⟩

/-- C113 is false for FITS files whose first data are an image: the table behind it is not found. -/
theorem image_first {σ : Type} (img tab : Hdu σ) (h1 : img.hasData = true) (h2 : img.image = true) :
    openFits [img, tab] .none = .error .valueError := by
  simp [openFits, findExt, List.findIdx?_cons, h1, hduAt, h2, badExt]

/-- An extension without table raises a TypeError if it is given by name: the message cannot be formatted. -/
theorem name_type_error {σ : Type} (ff : List (Hdu σ)) (s : String) (h : Hdu σ)
    (hs : ff.find? (fun h => h.name == s) = some h) (hb : h.hasData = false ∨ h.image = true) :
    openFits ff (.str s) = .error .typeError := by
  unfold openFits findExt
  simp only
  rw [if_pos]
  · simp only [hduAt, hs]
    rw [if_pos (by rcases hb with h | h <;> simp [h])]
    rfl
  · rw [List.any_eq_true]
    exact ⟨h, List.mem_of_find?_eq_some hs, List.find?_some (p := fun h : Hdu σ => h.name == s) hs⟩

/-- C113 is false for stacks of different files: a second file without the columns of the first is accepted; reading a row of it
fails. -/
theorem stack_mixed {σ : Type} (abspath : String → String) (opener : String → Except Err (Obj σ)) (a b : String) (oa ob : Obj σ)
    (ra rb : Read σ) (da db : DType) (n m : Nat) (hm : 0 < m) (ha : opener a = .ok oa) (hb : opener b = .ok ob)
    (hoa : oa = fileInit ra da n) (hob : ob = fileInit rb db m) (cols : List String) (e : Err)
    (he : ∀ (x y z : Int), rb cols x y z = .error e) :
    ∃ o rd, openStack abspath true opener (.list [a, b]) = .ok o ∧ o.size = n + m ∧ o.dtype = da ∧ o.own = some rd ∧
      rd cols (n + 1 : Nat) (n + m : Nat) 1 = .error e := by
  subst hoa hob
  refine ⟨fileInit (stackReadCols [fileInit ra da n, fileInit rb db m]) da ((([n, m] : List Nat).sum : Nat) : Int),
    stackReadCols [fileInit ra da n, fileInit rb db m], ?_, ?_, rfl, rfl, ?_⟩
  · unfold openStack stackNames
    simp only [Bool.not_true, Bool.false_eq_true, if_false, List.mapM_cons, List.mapM_nil, ha, hb]
    simp [lenOf, fileInit]
    rfl
  · simp [fileInit]
  · unfold stackReadCols stackRead
    have hs : getFileSlice [n, m] ((n + 1 : Nat) : Int) ((n + m : Nat) : Int) = [1] := by
      unfold getFileSlice searchLeft
      have e1 : (List.range [n, m].length).map (fun k => cum [n, m] (k + 1)) = [n, n + m] := by
        simp [List.range_succ, cum]
      rw [e1]
      have p1 : decide ((n : Int) < ((n + 1 : Nat) : Int)) = true := by simp
      have p2 : decide (((n + m : Nat) : Int) < ((n + 1 : Nat) : Int)) = false := by simp; omega
      have p3 : decide ((n : Int) < ((n + m : Nat) : Int)) = true := by simp; omega
      have p4 : decide (((n + m : Nat) : Int) < ((n + m : Nat) : Int)) = false := by simp
      simp only [List.takeWhile_cons, p1, p2, p3, p4]
      rfl
    simp only [List.map_cons, List.map_nil, fileInit, Int.toNat_natCast, readOf]
    rw [hs]
    rw [if_neg (by simp)]
    simp only [List.mapM_cons, readPart, List.getElem?_cons_succ, List.getElem?_cons_zero, he]
    rfl

/-- Names of files are sorted as text: file 10 comes before file 2. -/
theorem ten_before_two {σ : Type} (opener : String → Except Err (Obj σ)) :
    openStack id true opener (.str ["snap.2", "snap.10"]) = openStack id true opener (.list ["snap.10", "snap.2"]) := by
  have : stackNames id (.str ["snap.2", "snap.10"]) = .ok ["snap.10", "snap.2"] := by decide +kernel
  unfold openStack
  rw [this]
  rfl

/-! ## A worked case -/

/-- Two rows with a vector, and two numbers of one type; a scalar is a list of bytes. -/
def demo : Table (List Nat) where
  fields := [⟨"v", ⟨"u1", 1⟩, [3]⟩, ⟨"x", ⟨"u2", 2⟩, []⟩, ⟨"y", ⟨"u2", 2⟩, []⟩]
  n := 2
  data := fun c =>
    if c = "v" then [[[1], [2], [3]], [[4], [5], [6]]]
    else if c = "x" then [[[7, 7]], [[8, 8]]]
    else if c = "y" then [[[9, 9]], [[10, 10]]] else []

theorem demo_wf : demo.WF := by
  refine ⟨by decide, ?_, ?_⟩
  · intro f hf
    have : f = ⟨"v", ⟨"u1", 1⟩, [3]⟩ ∨ f = ⟨"x", ⟨"u2", 2⟩, []⟩ ∨ f = ⟨"y", ⟨"u2", 2⟩, []⟩ := by simpa [demo] using hf
    rcases this with rfl | rfl | rfl <;> rfl
  · intro f hf
    have : f = ⟨"v", ⟨"u1", 1⟩, [3]⟩ ∨ f = ⟨"x", ⟨"u2", 2⟩, []⟩ ∨ f = ⟨"y", ⟨"u2", 2⟩, []⟩ := by simpa [demo] using hf
    rcases this with rfl | rfl | rfl <;> (intro x hx; simp [demo] at hx; rcases hx with rfl | rfl <;> rfl)

theorem demo_sized : Sized demo := by
  intro f hf
  have : f = ⟨"v", ⟨"u1", 1⟩, [3]⟩ ∨ f = ⟨"x", ⟨"u2", 2⟩, []⟩ ∨ f = ⟨"y", ⟨"u2", 2⟩, []⟩ := by simpa [demo] using hf
  rcases this with rfl | rfl | rfl <;>
    (refine ⟨by decide, by decide, ?_⟩; intro x hx; simp [demo] at hx; rcases hx with rfl | rfl <;> simp)

/-- The case meets the hypotheses of the theorems: the file has 4 bytes of header and 14 bytes of data; two columns as an array,
the second row backwards counted, its second entry. -/
theorem demo_case :
    fileBytes [0, 0, 0, 0] demo = [0, 0, 0, 0, 1, 2, 3, 4, 5, 6, 7, 7, 8, 8, 9, 9, 10, 10] ∧
    ∃ o v x, openBinary (fileBytes [0, 0, 0, 0] demo) (packed demo.fields) .infer 4 .infer = .ok o ∧
      select o ["y", "x"] = .ok v ∧ asarray v = .ok x ∧ x.sub = [2] ∧
      getitem x (.slice ⟨none, none, none⟩) [] = .ok (.arr2 2 [[[9, 9], [7, 7]], [[10, 10], [8, 8]]]) ∧
      getitem x (.int (-1)) [.int 1] = .ok (.arr1 [[8, 8]]) := by
  refine ⟨rfl, ?_⟩
  obtain ⟨o, ho, hI⟩ := binary_opens [0, 0, 0, 0] demo demo_wf demo_sized (by simp [demo])
  have hHas : demo.Has ["y", "x"] := by
    intro k hk
    have : k = "y" ∨ k = "x" := by simpa using hk
    rcases this with rfl | rfl
    · exact ⟨⟨"y", ⟨"u2", 2⟩, []⟩, by simp [demo], rfl⟩
    · exact ⟨⟨"x", ⟨"u2", 2⟩, []⟩, by simp [demo], rfl⟩
  have hcase : ∀ f ∈ demo.fields, f.name ∈ ["y", "x"] → f.shape = [] ∧ f.base = ⟨"u2", 2⟩ := by
    intro f hf hn
    have : f = ⟨"v", ⟨"u1", 1⟩, [3]⟩ ∨ f = ⟨"x", ⟨"u2", 2⟩, []⟩ ∨ f = ⟨"y", ⟨"u2", 2⟩, []⟩ := by simpa [demo] using hf
    rcases this with rfl | rfl | rfl
    · simp at hn
    · exact ⟨rfl, rfl⟩
    · exact ⟨rfl, rfl⟩
  obtain ⟨v, x, h1, h2, _, _, h5, h6⟩ := asarray_rows o demo hI demo_wf ["y", "x"] (by simp) (by decide) hHas
    (fun f hf hn => (hcase f hf hn).1) (fun f hf g hg hn hm => by rw [(hcase f hf hn).2, (hcase g hg hm).2])
  have harr : demo.array ["y", "x"] = [[[9, 9], [7, 7]], [[10, 10], [8, 8]]] := rfl
  refine ⟨o, v, x, ho, h1, h2, h5, ?_, ?_⟩
  · refine (h6 _ _ ?_).1
    rw [harr]
    have hi : indices 2 ⟨none, none, none⟩ = some (0, 2, 1) := rfl
    refine ⟨⟨0, 2, 1, hi, by omega, by omega⟩, ?_⟩
    unfold pySlice
    show (indices 2 _).map _ = _
    rw [hi]
    simp [walk_pos, rowsAt]
  · have hp : Picks (demo.array ["y", "x"]) [[[10, 10], [8, 8]]] (.int (-1)) := by
      rw [harr]
      exact ⟨by simp, by simp, [[10, 10], [8, 8]], rfl, rfl⟩
    obtain ⟨l, hl, _, hm⟩ := (h6 _ _ hp).2.1 1 (by simp)
    rw [show ((1 : Nat) : Int) = 1 from rfl] at hl
    rw [hl]
    have : l = [[8, 8]] := by
      apply List.map_injective_iff.mpr (Option.some_injective _)
      rw [hm]; rfl
    rw [this]

/-- The dask arrays of the vector and of a number, in chunks of two. -/
theorem demo_dask :
    ∃ o v w, openBinary (fileBytes [0, 0, 0, 0] demo) (packed demo.fields) .infer 4 .infer = .ok o ∧
      getDask 100 o "v" (some 2) = .ok (v, 2) ∧ compute v 2 = .ok (.arr2 3 [[[1], [2], [3]], [[4], [5], [6]]]) ∧
      getDask 100 o "x" none = .ok (w, 100) ∧ compute w 100 = .ok (.arr1 [[7, 7], [8, 8]]) := by
  obtain ⟨o, ho, hI⟩ := binary_opens [0, 0, 0, 0] demo demo_wf demo_sized (by simp [demo])
  obtain ⟨v, h1, _, h2⟩ := dask_column_partial 100 o demo hI demo_wf ⟨"v", ⟨"u1", 1⟩, [3]⟩ (by simp [demo]) (some 2) (by simp)
  obtain ⟨w, h3, h4, _⟩ := dask_column_partial 100 o demo hI demo_wf ⟨"x", ⟨"u2", 2⟩, []⟩ (by simp [demo]) none (by simp)
  exact ⟨o, v, w, ho, h1, h2 3 rfl (by omega), h3, h4 rfl⟩

end NBK.FileObj
