import Verif.FileObj.ArrayProps

/-!
# C113: opening binary, TPM, FITS files and stacks
-/
set_option linter.unusedSimpArgs false
namespace NBK.FileObj
open NBK.FileIO NBK.PySlice

/-! ## Binary files -/

/-- Every scalar of the table has the bytes of its type; no item is empty. -/
def Sized {β : Type} (T : Table (List β)) : Prop :=
  ∀ f ∈ T.fields, 0 < f.base.width ∧ 0 < f.shape.prod ∧ ∀ x ∈ T.data f.name, ∀ y ∈ x, y.length = f.base.width

/-- The bytes of a column: items one after another. -/
def colBytes {β : Type} (T : Table (List β)) (c : String) : List β := (T.data c).flatten.flatten

/-- A binary file: a header, then the columns one after another. -/
def fileBytes {β : Type} (header : List β) (T : Table (List β)) : List β :=
  header ++ (T.fields.map fun f => colBytes T f.name).flatten

theorem items_scalars {β : Type} (w : Nat) (hw : 0 < w) (x : List (List β)) (hx : ∀ y ∈ x, y.length = w) :
    items w x.flatten = x := by
  have := items_flatten w hw x hx []
  rw [List.append_nil] at this
  rw [this]
  have h0 : items w ([] : List β) = [] := by rw [items, dif_neg (by simp; omega)]
  rw [h0, List.append_nil]

theorem rowsAt_mem {α : Type} (l : List α) (ps : List Int) : ∀ x ∈ rowsAt l ps, x ∈ l := by
  intro x hx
  obtain ⟨p, _, hp⟩ := List.mem_filterMap.mp hx
  split at hp
  · cases hp
  · exact List.mem_of_getElem? hp

/-- Rows put together from columns. -/
theorem transpose_rows {σ : Type} (T : Table σ) (keys : List String) (ps : List Int)
    (hlen : ∀ k ∈ keys, (T.data k).length = T.n) (hps : ∀ p ∈ ps, 0 ≤ p ∧ p < T.n) :
    transpose ps.length (keys.map fun k => rowsAt (T.data k) ps) = rowsAt (T.rows keys) ps := by
  have hrl := rows_length T keys
  apply List.ext_getElem?
  intro i
  by_cases hi : i < ps.length
  · have hp := hps ps[i] (List.getElem_mem _)
    have h1 : (rowsAt (T.rows keys) ps)[i]? = (T.rows keys)[(ps[i]).toNat]? := by
      have := congrArg (fun l => l[i]?) (rowsAt_valid (T.rows keys) ps (by rw [hrl]; exact hps))
      simp only [List.getElem?_map, List.getElem?_eq_getElem hi, Option.map_some] at this
      rw [List.getElem?_eq_getElem (by rw [hrl]; omega : (ps[i]).toNat < (T.rows keys).length)] at this ⊢
      cases h : (rowsAt (T.rows keys) ps)[i]? with
      | none => rw [h] at this; simp at this
      | some y => rw [h] at this; simpa using this
    rw [h1]
    unfold transpose Table.rows
    rw [List.getElem?_map, List.getElem?_range hi, List.getElem?_map, List.getElem?_range (by omega)]
    simp only [Option.map_some]
    congr 1
    rw [List.map_map]
    apply List.map_congr_left
    intro k hk
    have hl := hlen k hk
    simp only [Function.comp]
    have hv := rowsAt_valid (T.data k) ps (by rw [hl]; exact hps)
    have := congrArg (fun l => l[i]?) hv
    simp only [List.getElem?_map, List.getElem?_eq_getElem hi, Option.map_some] at this
    rw [List.getElem?_eq_getElem (by omega : (ps[i]).toNat < (T.data k).length)] at this
    unfold List.getD
    rw [List.getElem?_eq_getElem (by omega : (ps[i]).toNat < (T.data k).length)]
    cases h : (rowsAt (T.data k) ps)[i]? with
    | none => rw [h] at this; simp at this
    | some y => rw [h] at this; simp at this; rw [this]
  · rw [List.getElem?_eq_none, List.getElem?_eq_none]
    · rw [rowsAt_length _ _ (by rw [hrl]; exact hps)]; omega
    · simp [transpose]; omega

/-- `BinaryFile.read` is right if every column stands at its offset. -/
theorem binary_good {β : Type} (bytes : List β) (d : DType) (offs : List (String × Int)) (T : Table (List β))
    (hd : d.fields = T.fields) (hT : T.WF) (hS : Sized T)
    (hoff : ∀ f ∈ T.fields, ∃ pre post, offsetOf offs f.name = .ok (pre.length : Nat) ∧
      bytes = pre ++ colBytes T f.name ++ post) :
    Good (binReadCols bytes d offs) T := by
  intro keys hk hn hh a b c hc hab hb
  have hsz := sliceSize_partial a b c (Or.inl ⟨hc, by omega⟩)
  have hps : ∀ p ∈ walk a b c, 0 ≤ p ∧ p < T.n := by
    intro p hp
    have := (walk_mem_pos a b c hc p).mp hp
    omega
  unfold binReadCols
  rw [if_neg (by simp [hn]), if_neg (by omega), if_neg (by omega)]
  rw [mapM_ok (binColumn bytes d offs a b c) (fun k => rowsAt (T.data k) (walk a b c))]
  · simp only [hsz, Int.toNat_natCast]
    rw [transpose_rows T keys (walk a b c) _ hps]
    intro k hk
    obtain ⟨f, hf, rfl⟩ := hh k hk
    exact hT.len f hf
  · intro k hk
    obtain ⟨f, hf, rfl⟩ := hh k hk
    obtain ⟨pre, post, ho, hbytes⟩ := hoff f hf
    obtain ⟨hw, hs, hy⟩ := hS f hf
    unfold binColumn
    rw [get_unique d (by rw [hd]; exact hT.nodup) f (by rw [hd]; exact hf), ho]
    simp only
    rw [if_neg (by omega), Int.toNat_natCast]
    have hfl : colBytes T f.name = ((T.data f.name).map List.flatten).flatten := flatten_flatten_map _
    have hitem : ∀ x ∈ (T.data f.name).map List.flatten, x.length = f.bytes := by
      intro x hx
      obtain ⟨y, hy', rfl⟩ := List.mem_map.mp hx
      rw [flatten_length f.base.width y (hy y hy'), hT.item f hf y hy']
      unfold Field.bytes Field.scalars
      ring
    have hpos : 0 < f.bytes := Nat.mul_pos hw hs
    rw [hbytes, hfl, binRead_column pre post f.bytes hpos _ hitem a b c hc hab (by simp [hT.len f hf]; omega)]
    simp only
    rw [rowsAt_map, List.map_map]
    congr 1
    conv_rhs => rw [← List.map_id (rowsAt (T.data f.name) (walk a b c))]
    apply List.map_congr_left
    intro x hx
    exact items_scalars f.base.width hw x (hy x (rowsAt_mem _ _ x hx))

theorem find_key {α : Type} (l : List (String × α)) (hn : (l.map (·.1)).Nodup) (k : String) (v : α) (h : (k, v) ∈ l) :
    l.find? (fun p => p.1 == k) = some (k, v) := by
  induction l with
  | nil => simp at h
  | cons p l ih =>
    rw [List.map_cons, List.nodup_cons] at hn
    rcases List.mem_cons.mp h with rfl | h
    · simp
    · rw [List.find?_cons_of_neg]
      · exact ih hn.2 h
      · intro e
        have : p.1 = k := by simpa using e
        exact hn.1 (by rw [this]; exact List.mem_map_of_mem (f := (·.1)) h)

theorem col_length {β : Type} (T : Table (List β)) (hT : T.WF) (hS : Sized T) (f : Field) (hf : f ∈ T.fields) :
    (colBytes T f.name).length = T.n * f.bytes := by
  have hfl : colBytes T f.name = ((T.data f.name).map List.flatten).flatten := flatten_flatten_map _
  rw [hfl, flatten_length f.bytes]
  · simp [hT.len f hf]
  · intro x hx
    obtain ⟨y, hy', rfl⟩ := List.mem_map.mp hx
    rw [flatten_length f.base.width y ((hS f hf).2.2 y hy'), hT.item f hf y hy']
    unfold Field.bytes Field.scalars
    ring

theorem take_length {β : Type} (T : Table (List β)) (hT : T.WF) (hS : Sized T) (fs : List Field) (h : ∀ f ∈ fs, f ∈ T.fields) :
    (((fs.map fun f => colBytes T f.name).flatten.length : Nat) : Int) = (fs.map fun g => (T.n : Int) * (g.bytes : Int)).sum := by
  induction fs with
  | nil => rfl
  | cons f fs ih =>
    rw [List.map_cons, List.flatten_cons, List.length_append, List.map_cons, List.sum_cons,
      ← ih (fun g hg => h g (by simp [hg])), col_length T hT hS f (h f (by simp))]
    push_cast
    ring

/-- The inferred offset of a column is where it stands. -/
theorem inferred_offset {β : Type} (header : List β) (T : Table (List β)) (hT : T.WF) (hS : Sized T) (offs : List (String × Int))
    (ho : binOffsets header.length T.n T.fields .infer = .ok offs) (f : Field) (hf : f ∈ T.fields) :
    ∃ pre post, offsetOf offs f.name = .ok (pre.length : Nat) ∧ fileBytes header T = pre ++ colBytes T f.name ++ post := by
  obtain ⟨k, hk, hkf⟩ := List.mem_iff_getElem.mp hf
  refine ⟨header ++ ((T.fields.take k).map fun f => colBytes T f.name).flatten,
    ((T.fields.drop (k + 1)).map fun f => colBytes T f.name).flatten, ?_, ?_⟩
  · unfold binOffsets at ho
    simp only [Except.ok.injEq] at ho
    unfold offsetOf
    rw [← ho]
    have hmem : (f.name, (header.length : Int) + ((T.fields.take k).map fun g => (T.n : Int) * (g.bytes : Int)).sum) ∈
        ((List.range T.fields.length).zip T.fields).map fun p => (p.2.name,
          (header.length : Int) + ((T.fields.take p.1).map fun g => (T.n : Int) * (g.bytes : Int)).sum) := by
      refine List.mem_map.mpr ⟨(k, f), ?_, rfl⟩
      rw [List.mem_iff_getElem?]
      refine ⟨k, ?_⟩
      rw [List.getElem?_zip_eq_some (z := (k, f))]
      exact ⟨List.getElem?_range hk, by rw [List.getElem?_eq_getElem hk, hkf]⟩
    have hnod : ((((List.range T.fields.length).zip T.fields).map fun p => (p.2.name,
          (header.length : Int) + ((T.fields.take p.1).map fun g => (T.n : Int) * (g.bytes : Int)).sum)).map (·.1)).Nodup := by
      rw [List.map_map]
      have : ((List.range T.fields.length).zip T.fields).map ((fun x : String × Int => x.1) ∘ fun p => (p.2.name,
          (header.length : Int) + ((T.fields.take p.1).map fun g => (T.n : Int) * (g.bytes : Int)).sum)) =
          (((List.range T.fields.length).zip T.fields).map Prod.snd).map (·.name) := by
        rw [List.map_map]; rfl
      rw [this, List.map_snd_zip (by simp)]
      exact hT.nodup
    rw [find_key _ hnod _ _ hmem]
    simp only
    congr 1
    rw [List.length_append, ← take_length T hT hS _ (fun g hg => List.mem_of_mem_take hg)]
    push_cast
    rfl
  · unfold fileBytes
    conv_lhs => rw [← List.take_append_drop k T.fields, List.drop_eq_getElem_cons hk, hkf]
    simp only [List.map_append, List.map_cons, List.flatten_append, List.flatten_cons, List.append_assoc]

theorem file_length {β : Type} (header : List β) (T : Table (List β)) (hT : T.WF) (hS : Sized T) :
    ((fileBytes header T).length : Int) - header.length = T.n * ((T.fields.map Field.bytes).sum : Nat) := by
  unfold fileBytes
  rw [List.length_append]
  push_cast
  rw [take_length T hT hS _ (fun _ h => h)]
  have : ∀ fs : List Field, (fs.map fun g => (T.n : Int) * (g.bytes : Int)).sum = T.n * ((fs.map Field.bytes).sum : Nat) := by
    intro fs
    induction fs with
    | nil => simp
    | cons f fs ih => rw [List.map_cons, List.sum_cons, ih, List.map_cons, List.sum_cons]; push_cast; ring
  rw [this]; push_cast; ring

/-- C113, binary files: a file of columns behind a header opens with its number of rows and is read by column names. -/
theorem binary_opens {β : Type} (header : List β) (T : Table (List β)) (hT : T.WF) (hS : Sized T) (hne : T.fields ≠ []) :
    ∃ o, openBinary (fileBytes header T) (packed T.fields) .infer header.length .infer = .ok o ∧ IsFile o T := by
  have hpos : 0 < (T.fields.map Field.bytes).sum := by
    obtain ⟨f, fs, hf⟩ := List.exists_cons_of_ne_nil hne
    obtain ⟨h1, h2, _⟩ := hS f (by rw [hf]; simp)
    have : 0 < f.bytes := Nat.mul_pos h1 h2
    rw [hf, List.map_cons, List.sum_cons]
    omega
  have hsize : getsize (fileBytes header T).length header.length (T.fields.map Field.bytes).sum = .ok (T.n : Int) := by
    unfold getsize
    simp only [file_length header T hT hS]
    have e1 : Int.fmod ((T.n : Int) * ((T.fields.map Field.bytes).sum : Nat)) ((T.fields.map Field.bytes).sum : Nat) = 0 := by
      rw [Int.fmod_eq_emod_of_nonneg _ (by omega)]; simp
    have e2 : Int.fdiv ((T.n : Int) * ((T.fields.map Field.bytes).sum : Nat)) ((T.fields.map Field.bytes).sum : Nat) = T.n := by
      rw [Int.fdiv_eq_ediv_of_nonneg _ (by omega), Int.mul_ediv_cancel _ (by omega)]
    rw [e1, e2]
    simp
  obtain ⟨offs, ho⟩ : ∃ offs, binOffsets header.length T.n T.fields .infer = .ok offs := ⟨_, rfl⟩
  refine ⟨fileInit (binReadCols (fileBytes header T) (packed T.fields) offs) (packed T.fields) T.n, ?_,
    _, _, rfl, binary_good _ _ _ T rfl hT hS (inferred_offset header T hT hS offs ho)⟩
  unfold openBinary binSize
  simp only [packed, DType.itemsize, hsize]
  rw [if_neg (by simp)]
  simp only [DType.names, DType.fields, ho]

/-- C113, given size and offsets: the columns may stand anywhere. -/
theorem binary_offsets {β : Type} (bytes : List β) (T : Table (List β)) (hT : T.WF) (hS : Sized T) (itemsize header : Nat)
    (l : List (String × Nat)) (hl : (l.map (·.1)).Nodup)
    (hoff : ∀ f ∈ T.fields, ∃ pre post, (f.name, pre.length) ∈ l ∧ bytes = pre ++ colBytes T f.name ++ post) :
    ∃ o, openBinary bytes (.struct T.fields itemsize) (.dict l) header (.value (T.n : Int)) = .ok o ∧ IsFile o T := by
  have hall : (T.fields.all fun f => l.any fun p => p.1 == f.name) = true := by
    rw [List.all_eq_true]
    intro f hf
    obtain ⟨pre, _, hp, _⟩ := hoff f hf
    rw [List.any_eq_true]
    exact ⟨_, hp, by simp⟩
  refine ⟨fileInit (binReadCols bytes (.struct T.fields itemsize) (l.map fun p => (p.1, (p.2 : Int))))
    (.struct T.fields itemsize) T.n, ?_, _, _, rfl, binary_good _ _ _ T rfl hT hS ?_⟩
  · unfold openBinary binSize
    simp only
    rw [if_neg (by simp)]
    simp only [Rat.num_intCast]
    rw [if_neg (by simp)]
    simp only [DType.names, DType.fields, binOffsets, hall, if_true]
  · intro f hf
    obtain ⟨pre, post, hp, hb⟩ := hoff f hf
    refine ⟨pre, post, ?_, hb⟩
    unfold offsetOf
    rw [find_key (l.map fun p => (p.1, (p.2 : Int))) (by rw [List.map_map]; exact hl) f.name (pre.length : Int)
      (List.mem_map.mpr ⟨_, hp, rfl⟩)]

/-- Refused arguments: a fractional size, offsets that are not a dict or miss a column, a type without fields, a file that is not
a whole number of rows. -/
theorem binary_rejects {β : Type} (bytes : List β) (d : DType) (header : Nat) :
    (∀ q : Rat, q.den ≠ 1 → ∀ offs, openBinary bytes d offs header (.value q) = .error .typeError) ∧
    (∀ n : Int, openBinary bytes d .other header (.value n) = .error .typeError) ∧
    (∀ (n : Int) (l : List (String × Nat)), (∃ f ∈ d.fields, ∀ p ∈ l, p.1 ≠ f.name) →
      openBinary bytes d (.dict l) header (.value n) = .error .valueError) ∧
    (∀ (b : Base) (n : Int) (offs : OffArg), openBinary bytes (.plain b) offs header (.value n) = .error .typeError) ∧
    ((¬ ∃ n : Int, (bytes.length : Int) - header = n * d.itemsize) →
      ∀ offs, openBinary bytes d offs header .infer = .error .valueError) := by
  refine ⟨?_, ?_, ?_, ?_, ?_⟩
  · intro q hq offs
    simp [openBinary, binSize, hq]
  · intro n
    simp [openBinary, binSize]
  · rintro n l ⟨f, hf, hl⟩
    have hall : (d.fields.all fun f => l.any fun p => p.1 == f.name) = false := by
      rw [List.all_eq_false]
      refine ⟨f, hf, ?_⟩
      rw [Bool.not_eq_true, List.any_eq_false]
      intro p hp
      simpa using hl p hp
    have hnm : ∃ x, d.names = some x := by
      cases d with
      | struct fs k => exact ⟨_, rfl⟩
      | plain b => simp [DType.fields] at hf
    obtain ⟨x, hx⟩ := hnm
    simp [openBinary, binSize, hx, binOffsets, hall]
  · intro b n offs
    unfold openBinary binSize
    simp only [Rat.num_intCast]
    rw [if_neg (by simp)]
    by_cases h : offs = .other
    · simp [h]
    · simp [h, DType.names]
  · intro h offs
    unfold openBinary binSize
    simp only [(getsize_rejects _ _ _).mpr h]

/-- C113, TPM files: 28 bytes of header, then positions, velocities and identifiers. -/
theorem tpm_opens {β : Type} (header : List β) (T : Table (List β)) (hT : T.WF) (hS : Sized T) (hh : header.length = 28)
    (p : String) (w : Nat) (hp : (p = "f4" ∧ w = 4) ∨ (p = "f8" ∧ w = 8))
    (hf : T.fields = [⟨"Position", ⟨p, w⟩, [3]⟩, ⟨"Velocity", ⟨p, w⟩, [3]⟩, ⟨"ID", ⟨"u8", 8⟩, []⟩]) :
    ∃ o, openTPM (fileBytes header T) p = .ok o ∧ IsFile o T := by
  obtain ⟨o, ho, hI⟩ := binary_opens header T hT hS (by rw [hf]; simp)
  refine ⟨o, ?_, hI⟩
  rw [hh, hf] at ho
  unfold openTPM
  rcases hp with ⟨rfl, rfl⟩ | ⟨rfl, rfl⟩
  · rw [if_pos rfl]; exact ho
  · rw [if_neg (by decide), if_pos rfl]; exact ho

theorem tpm_rejects {β : Type} (bytes : List β) (p : String) (h4 : p ≠ "f4") (h8 : p ≠ "f8") :
    openTPM bytes p = .error .valueError := by
  unfold openTPM
  rw [if_neg h4, if_neg h8]

/-! ## Stacks -/

/-- Tables one after another; the fields are those of the first. -/
def concatTables {σ : Type} (T : Table σ) (Ts : List (Table σ)) : Table σ where
  fields := T.fields
  n := ((T :: Ts).map (·.n)).sum
  data := fun c => ((T :: Ts).map (·.data c)).flatten

theorem concat_wf {σ : Type} (T : Table σ) (Ts : List (Table σ)) (hw : ∀ U ∈ T :: Ts, U.WF)
    (hf : ∀ U ∈ T :: Ts, ∀ f ∈ T.fields, f ∈ U.fields) : (concatTables T Ts).WF := by
  refine ⟨(hw T (by simp)).nodup, ?_, ?_⟩
  · intro f hff
    unfold concatTables
    simp only
    rw [List.length_flatten, List.map_map]
    congr 1
    apply List.map_congr_left
    intro U hU
    exact (hw U hU).len f (hf U hU f hff)
  · intro f hff x hx
    obtain ⟨l, hl, hxl⟩ := List.mem_flatten.mp hx
    obtain ⟨U, hU, rfl⟩ := List.mem_map.mp hl
    exact (hw U hU).item f (hf U hU f hff) x hxl

theorem getD_append {α : Type} (l₁ l₂ : List α) (d : α) (i : Nat) (h : l₁.length ≤ i) :
    (l₁ ++ l₂).getD i d = l₂.getD (i - l₁.length) d := by
  unfold List.getD
  rw [List.getElem?_append_right h]

theorem rows_append {σ : Type} (n m : Nat) (d e : String → List (List σ)) (keys : List String)
    (hd : ∀ k ∈ keys, (d k).length = n) :
    ((List.range (n + m)).map fun i => keys.map fun k => (d k ++ e k).getD i []) =
      ((List.range n).map fun i => keys.map fun k => (d k).getD i []) ++
      ((List.range m).map fun i => keys.map fun k => (e k).getD i []) := by
  rw [List.range_add, List.map_append, List.map_map]
  congr 1
  · apply List.map_congr_left
    intro i hi
    apply List.map_congr_left
    intro k hk
    have := hd k hk
    rw [List.mem_range] at hi
    unfold List.getD
    rw [List.getElem?_append_left (by omega)]
  · apply List.map_congr_left
    intro i _
    apply List.map_congr_left
    intro k hk
    have := hd k hk
    show (d k ++ e k).getD (n + i) [] = _
    rw [getD_append _ _ _ _ (by omega)]
    congr 1
    omega

/-- The rows of the stack are the rows of the files one after another. -/
theorem concat_rows {σ : Type} (Ts : List (Table σ)) (keys : List String) (h : ∀ U ∈ Ts, ∀ k ∈ keys, (U.data k).length = U.n) :
    ((List.range ((Ts.map (·.n)).sum)).map fun i => keys.map fun k => ((Ts.map (·.data k)).flatten).getD i []) =
      (Ts.map fun U => U.rows keys).flatten := by
  induction Ts with
  | nil => simp
  | cons U Ts ih =>
    have := rows_append U.n ((Ts.map (·.n)).sum) U.data (fun k => (Ts.map (·.data k)).flatten) keys (h U (by simp))
    simp only [List.map_cons, List.sum_cons, List.flatten_cons]
    rw [this, ih (fun V hV => h V (by simp [hV]))]
    rfl

theorem good_reads {σ : Type} (rd : Read σ) (T : Table σ) (hg : Good rd T) (keys : List String) (hk : keys ≠ [])
    (hn : keys.Nodup) (hh : T.Has keys) : Reads (rd keys) (T.rows keys) := by
  intro a b hab hb
  rw [rows_length] at hb
  rw [hg keys hk hn hh a b 1 (by omega) hab hb]
  have h1 := (everyStep_slice (T.rows keys) a b 1 (by omega) hab (by rw [rows_length]; exact hb)).1
  rw [everyStep_one] at h1
  exact h1.symm

/-- C113, stacks: files with (at least) the columns of the first one open as one file with all rows, in the order of the list. -/
theorem stack_opens {σ : Type} (abspath : String → String) (opener : String → Except Err (Obj σ)) (name : String)
    (names : List String) (T : Table σ) (Ts : List (Table σ))
    (h : List.Forall₂ (fun nm U => ∃ o, opener nm = .ok o ∧ IsFile o U ∧ Table.WF U) (name :: names) (T :: Ts))
    (hf : ∀ U ∈ T :: Ts, ∀ f ∈ T.fields, f ∈ U.fields) :
    ∃ o, openStack abspath true opener (.list (name :: names)) = .ok o ∧ IsFile o (concatTables T Ts) ∧
      (concatTables T Ts).WF := by
  have hfiles : ∀ (nms : List String) (Us : List (Table σ)),
      List.Forall₂ (fun nm U => ∃ o, opener nm = .ok o ∧ IsFile o U ∧ Table.WF U) nms Us →
      ∃ files, nms.mapM opener = .ok files ∧ List.Forall₂ (fun o U => IsFile o U ∧ Table.WF U) files Us := by
    intro nms Us h
    induction h with
    | nil => exact ⟨[], rfl, .nil⟩
    | @cons a b l1 l2 h1 _ ih =>
      obtain ⟨o, h1, h2, h3⟩ := h1
      obtain ⟨fs, h4, h5⟩ := ih
      exact ⟨o :: fs, by rw [List.mapM_cons, h1, h4]; rfl, .cons ⟨h2, h3⟩ h5⟩
  obtain ⟨files, hm, hF⟩ := hfiles _ _ h
  have hwf : ∀ U ∈ T :: Ts, U.WF := by
    clear hf h
    generalize T :: Ts = Us at hF
    clear hm
    induction hF with
    | nil => simp
    | @cons a b l1 l2 h1 _ ih =>
      intro U hU
      rcases List.mem_cons.mp hU with rfl | hU
      · exact h1.2
      · exact ih U hU
  have hsizes : ∀ (fs : List (Obj σ)) (Us : List (Table σ)), List.Forall₂ (fun o U => IsFile o U ∧ Table.WF U) fs Us →
      fs.mapM lenOf = .ok (Us.map (·.n)) ∧ fs.map (fun f => f.size.toNat) = Us.map (·.n) := by
    intro fs Us h
    induction h with
    | nil => exact ⟨rfl, rfl⟩
    | @cons a b l1 l2 h1 _ ih =>
      obtain ⟨⟨rd, k, rfl, _⟩, _⟩ := h1
      refine ⟨?_, ?_⟩
      · rw [List.mapM_cons, ih.1]
        simp [lenOf, fileInit]
        rfl
      · rw [List.map_cons, ih.2]
        simp [fileInit]
  obtain ⟨f0, fs0, rfl, hf0⟩ : ∃ f0 fs0, files = f0 :: fs0 ∧ IsFile f0 T := by
    cases hF with
    | cons h1 _ => exact ⟨_, _, rfl, h1.1⟩
  have hs := hsizes _ _ hF
  refine ⟨fileInit (stackReadCols (f0 :: fs0)) f0.dtype (((T :: Ts).map (·.n)).sum : Nat), ?_, ?_, concat_wf T Ts hwf hf⟩
  · unfold openStack stackNames
    simp only [Bool.not_true, Bool.false_eq_true, if_false, hm, hs.1]
  · obtain ⟨rd0, k0, rfl, hg0⟩ := hf0
    refine ⟨_, k0, rfl, ?_⟩
    intro keys hk hn hh a b c hc hab hb
    have hkT : ∀ U ∈ T :: Ts, U.Has keys := by
      intro U hU k hk
      obtain ⟨f, hff, rfl⟩ := hh k hk
      exact ⟨f, hf U hU f hff, rfl⟩
    have hlen : ∀ U ∈ T :: Ts, ∀ k ∈ keys, (U.data k).length = U.n := by
      intro U hU k hk
      obtain ⟨f, hff, rfl⟩ := hkT U hU k hk
      exact (hwf U hU).len f hff
    have hflat : ((T :: Ts).map fun U => U.rows keys).flatten = (concatTables T Ts).rows keys :=
      (concat_rows (T :: Ts) keys hlen).symm
    have hreads : ∀ (fs : List (Obj σ)) (Us : List (Table σ)), List.Forall₂ (fun o U => IsFile o U ∧ Table.WF U) fs Us →
        (∀ U ∈ Us, U.Has keys) → ∀ (k n : Nat) (rd : Reader (List (List σ))) (rows : List (List (List σ))),
        (fs.map fun f => (f.size.toNat, readOf f keys))[k]? = some (n, rd) → (Us.map fun U => U.rows keys)[k]? = some rows →
        Reads rd rows := by
      intro fs Us h
      induction h with
      | nil => intro _ k n rd rows h1; simp at h1
      | @cons a b l1 l2 h1 _ ih =>
        intro hU k n rd rows hk1 hk2
        cases k with
        | zero =>
          obtain ⟨⟨rd', _, rfl, hg⟩, _⟩ := h1
          simp only [List.map_cons, List.getElem?_cons_zero, Option.some.injEq, Prod.mk.injEq] at hk1 hk2
          rw [← hk1.2, ← hk2]
          exact good_reads rd' b hg keys hk hn (hU b (by simp))
        | succ k =>
          rw [List.map_cons, List.getElem?_cons_succ] at hk1 hk2
          exact ih (fun U h => hU U (by simp [h])) k n rd rows hk1 hk2
    have hst := stack_reads
      ((fileInit rd0 (DType.struct T.fields k0) (T.n : Int) :: fs0).map fun f => (f.size.toNat, readOf f keys))
      ((T :: Ts).map fun U => U.rows keys) (by simp)
      (by
        have := hs.2
        rw [List.map_map, List.map_map]
        have e1 : (Prod.fst ∘ fun f : Obj σ => (f.size.toNat, readOf f keys)) = fun f => f.size.toNat := rfl
        have e2 : (List.length ∘ fun U : Table σ => U.rows keys) = fun U => U.n := by
          funext U; exact rows_length U keys
        rw [e1, e2]; exact this)
      (hreads _ _ hF hkT) a b hab (by rw [hflat, rows_length]; exact hb) c
    show stackRead _ a b c = _
    rw [hst, hflat]
    exact (everyStep_slice _ a b c hc hab (by rw [rows_length]; exact hb)).1

/-- A glob pattern is the sorted list of the names that match. -/
theorem stack_glob {σ : Type} (abspath : String → String) (opener : String → Except Err (Obj σ)) (found : List String)
    (hne : found ≠ []) :
    ∃ names : List String, openStack abspath true opener (.str found) = openStack abspath true opener (.list (names.map abspath)) ∧
      names.Perm found ∧ names.Pairwise (· ≤ ·) := by
  refine ⟨found.insertionSort (· ≤ ·), ?_, List.perm_insertionSort _ _, ?_⟩
  · unfold openStack stackNames
    have : (found.insertionSort (· ≤ ·)).map abspath ≠ [] := by
      intro h
      have h2 := (List.perm_insertionSort (· ≤ ·) found).length_eq
      have h3 := congrArg List.length h
      simp only [List.length_map, List.length_nil] at h3
      exact hne (List.length_eq_zero_iff.mp (by omega))
    dsimp only
    cases h : (found.insertionSort (· ≤ ·)).map abspath with
    | nil => exact absurd h this
    | cons a l => rfl
  · exact List.pairwise_insertionSort _ _

/-- Refused stacks. -/
theorem stack_rejects {σ : Type} (abspath : String → String) (opener : String → Except Err (Obj σ)) :
    (∀ p, openStack abspath false opener p = .error .valueError) ∧
    openStack abspath true opener .other = .error .valueError ∧
    openStack abspath true opener (.str []) = .error .fileNotFound ∧
    openStack abspath true opener (.list []) = .error .indexError ∧
    (∀ nm e, opener nm = .error e → openStack abspath true opener (.list [nm]) = .error e) := by
  refine ⟨fun p => by simp [openStack], rfl, by simp [openStack, stackNames], rfl, ?_⟩
  intro nm e h
  unfold openStack stackNames
  simp only [Bool.not_true, Bool.false_eq_true, if_false, List.mapM_cons, h]
  rfl

/-! ## FITS -/

/-- C113, FITS: an extension given by number or name, or the first HDU with data, opens with its rows and columns if it is a
table. `fitsio` is trusted to read rows (`Good`). -/
theorem fits_opens {σ : Type} (ff : List (Hdu σ)) (h : Hdu σ) (T : Table σ) (hg : Good h.read T) (hf : h.fields = T.fields)
    (hn : h.nrows = T.n) (hd : h.hasData = true) (hi : h.image = false) :
    (∀ n, ff[n]? = some h → ∃ o, openFits ff (.num n) = .ok (o, .num n) ∧ IsFile o T) ∧
    (∀ s, ff.find? (fun h => h.name == s) = some h → ∃ o, openFits ff (.str s) = .ok (o, .str s) ∧ IsFile o T) ∧
    (∀ n, ff[n]? = some h → (∀ k g, k < n → ff[k]? = some g → g.hasData = false) →
      ∃ o, openFits ff .none = .ok (o, .num n) ∧ IsFile o T) := by
  have hfile : IsFile (fileInit h.read (packed h.fields) h.nrows) T := ⟨h.read, _, by rw [hf, hn]; rfl, hg⟩
  refine ⟨?_, ?_, ?_⟩
  · intro n hnn
    refine ⟨_, ?_, hfile⟩
    obtain ⟨hlt, _⟩ := List.getElem?_eq_some_iff.mp hnn
    unfold openFits findExt
    simp only
    rw [if_neg (by omega)]
    simp only [hduAt, hnn, hd, hi]
    rfl
  · intro s hs
    refine ⟨_, ?_, hfile⟩
    unfold openFits findExt
    simp only
    rw [if_pos]
    · simp only [hduAt, hs, hd, hi]
      rfl
    · rw [List.any_eq_true]
      exact ⟨h, List.mem_of_find?_eq_some hs, List.find?_some (p := fun h : Hdu σ => h.name == s) hs⟩
  · intro n hnn hfirst
    refine ⟨_, ?_, hfile⟩
    obtain ⟨hlt, hval⟩ := List.getElem?_eq_some_iff.mp hnn
    have : ff.findIdx? (fun h => h.hasData) = some n := by
      rw [List.findIdx?_eq_some_iff_getElem]
      refine ⟨hlt, by rw [hval]; exact hd, ?_⟩
      intro j hj
      simpa using hfirst j _ hj (List.getElem?_eq_getElem (by omega))
    unfold openFits findExt
    simp only [this, hduAt, hnn, hd, hi]
    rfl

/-- Refused extensions: no HDU with data, unknown name, number too large, a number of an HDU that is no table. -/
theorem fits_rejects {σ : Type} (ff : List (Hdu σ)) :
    ((∀ h ∈ ff, h.hasData = false) → openFits ff .none = .error .valueError) ∧
    (∀ s, (∀ h ∈ ff, h.name ≠ s) → openFits ff (.str s) = .error .valueError) ∧
    (∀ n, ff.length ≤ n → openFits ff (.num n) = .error .valueError) ∧
    (∀ n h, ff[n]? = some h → (h.hasData = false ∨ h.image = true) → openFits ff (.num n) = .error .valueError) := by
  refine ⟨?_, ?_, ?_, ?_⟩
  · intro h
    have : ff.findIdx? (fun h => h.hasData) = none := by
      rw [List.findIdx?_eq_none_iff]
      exact h
    simp [openFits, findExt, this]
  · intro s h
    unfold openFits findExt
    simp only
    rw [if_neg]
    simpa using h
  · intro n h
    unfold openFits findExt
    simp only
    rw [if_pos h]
  · intro n h hn hb
    obtain ⟨hlt, _⟩ := List.getElem?_eq_some_iff.mp hn
    unfold openFits findExt
    simp only
    rw [if_neg (by omega)]
    simp only [hduAt, hn]
    rw [if_pos (by rcases hb with h | h <;> simp [h])]
    rfl

end NBK.FileObj
