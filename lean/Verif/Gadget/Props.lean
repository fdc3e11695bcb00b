import Verif.Gadget.Model
import Verif.FileIO.Props

/-! # Gadget-1 snapshots: property C30 -/
set_option linter.unusedSimpArgs false
namespace NBK.Gadget

/-- The snapshot format: which particle types are stored in a block, in order. Masses are stored only for the types whose
entry in the mass table of the header is zero; a block of 'all' types holds types 0 to 5. -/
def stored (h : Header) (c : Col) : List Nat :=
  if c.all = true ∨ c.name = "Mass" then (List.range 6).filter fun i => c.all || h.massZero i else c.types

theorem ptypesOf_eq (h : Header) (c : Col) : ptypesOf h c = stored h c := by
  unfold ptypesOf stored
  by_cases ha : c.all = true
  · simp [ha]; decide
  · by_cases hm : c.name = "Mass"
    · simp [ha, hm]; rfl
    · simp [ha, hm]

/-- The content of a column: for each particle type the items, each of `width` bytes. -/
structure Data (β : Type) where
  col : Col
  width : Nat
  items : Nat → List (List β)
  nameRecord : List β

/-- A Fortran record: marker, payload, marker. -/
def record {β : Type} (enc : Nat → List β) (payload : List β) : List β :=
  enc payload.length ++ payload ++ enc payload.length

/-- The payload of a block: the items of all its particle types, one type after the other. -/
def payload {β : Type} (h : Header) (d : Data β) : List β := ((stored h d.col).map fun i => (d.items i).flatten).flatten

/-- A block as written by Gadget: nothing if it has no particles, else a record (with a name record before it in the
format with names). -/
def block {β : Type} (enc : Nat → List β) (named : Bool) (h : Header) (d : Data β) : List β :=
  if ((stored h d.col).map h.npart).sum = 0 then []
  else (if named then d.nameRecord else []) ++ record enc (payload h d)

/-- The data match the header and the column definition. -/
structure Valid {β : Type} (named : Bool) (h : Header) (d : Data β) : Prop where
  nodup : (stored h d.col).Nodup
  count : ∀ i ∈ stored h d.col, (d.items i).length = h.npart i
  size : ∀ i ∈ stored h d.col, ∀ x ∈ d.items i, x.length = d.width
  pos : 0 < d.width
  shape : 0 < d.col.shape
  elem : match d.col.elem with
    | some e => d.width = e * d.col.shape
    | none => d.width = 4 * d.col.shape ∨ d.width = 8 * d.col.shape
  name : named = true → d.nameRecord.length = 16

theorem scan_spec (h : Header) (ptype : Nat) (ts : List Nat) : ∀ s : Nat × Nat,
    (ts.foldl (fun s i => (if i = ptype then s.2 else s.1, s.2 + h.npart i)) s).2 = s.2 + (ts.map h.npart).sum ∧
    (ptype ∉ ts → (ts.foldl (fun s i => (if i = ptype then s.2 else s.1, s.2 + h.npart i)) s).1 = s.1) ∧
    (∀ l r, ts = l ++ ptype :: r → ptype ∉ r →
      (ts.foldl (fun s i => (if i = ptype then s.2 else s.1, s.2 + h.npart i)) s).1 = s.2 + (l.map h.npart).sum) := by
  induction ts with
  | nil => intro s; refine ⟨by simp, by simp, ?_⟩; intro l r e; simp at e
  | cons t ts ih =>
    intro s
    obtain ⟨h1, h2, h3⟩ := ih (if t = ptype then s.2 else s.1, s.2 + h.npart t)
    simp only [List.foldl_cons]
    refine ⟨by rw [h1]; simp [Nat.add_assoc], ?_, ?_⟩
    · intro hn
      rw [h2 (fun hm => hn (by simp [hm])), if_neg (fun e => hn (by simp [e]))]
    · intro l r e hr
      cases l with
      | nil =>
        simp at e
        obtain ⟨rfl, rfl⟩ := e
        rw [h2 hr]
        simp
      | cons x l =>
        simp at e
        obtain ⟨rfl, rfl⟩ := e
        rw [h3 l r rfl hr]
        simp [Nat.add_assoc]

theorem payload_length {β : Type} (h : Header) (w : Nat) (f : Nat → List (List β)) (ts : List Nat)
    (hc : ∀ i ∈ ts, (f i).length = h.npart i) (hs : ∀ i ∈ ts, ∀ x ∈ f i, x.length = w) :
    ((ts.map fun i => (f i).flatten).flatten).length = (ts.map h.npart).sum * w := by
  induction ts with
  | nil => simp
  | cons t ts ih =>
    simp only [List.map_cons, List.flatten_cons, List.length_append, List.sum_cons]
    rw [ih (fun i hi => hc i (by simp [hi])) (fun i hi => hs i (by simp [hi])),
      FileIO.flatten_length w _ (hs t (by simp)), hc t (by simp), Nat.add_mul]

theorem readMarker_at {β : Type} (dec : List β → Nat) (pre m post : List β) (hm : m.length = 4) :
    readMarker dec (pre ++ m ++ post) pre.length = .ok (dec m) := by
  have := FileIO.fromfile_column pre post 4 (by omega) [m] (by simpa using hm) 0 1 (by omega) (by simp)
  simp at this
  unfold readMarker
  rw [List.append_assoc, this]

/-- The element size found gives back the row width. -/
theorem elemSize_width {β : Type} (named : Bool) (h : Header) (d : Data β) (hv : Valid named h d) :
    ∃ e, elemSize d.col (some (d.width / d.col.shape)) = .ok e ∧ e * d.col.shape = d.width := by
  have hel := hv.elem
  have hsh := hv.shape
  unfold elemSize
  cases he : d.col.elem with
  | some e => rw [he] at hel; exact ⟨e, rfl, hel.symm⟩
  | none =>
    rw [he] at hel
    simp only at hel ⊢
    rcases hel with hel | hel
    · rw [hel, Nat.mul_div_cancel _ hsh]; exact ⟨4, rfl, rfl⟩
    · rw [hel, Nat.mul_div_cancel _ hsh]; exact ⟨8, rfl, rfl⟩

/-- One block: the pointer moves behind the block, and the entry points to the items of `ptype`. -/
theorem columnStep_spec {β : Type} (enc : Nat → List β) (dec : List β → Nat) (hel : ∀ n, (enc n).length = 4)
    (named : Bool) (h : Header) (ptype : Nat) (d : Data β)
    (hdec : dec (enc (payload h d).length) = (payload h d).length) (hv : Valid named h d)
    (pre post : List β) :
    ∃ e, columnStep dec (pre ++ block enc named h d ++ post) named h ptype pre.length d.col =
        .ok (pre.length + (block enc named h d).length, e) ∧
      e.name = d.col.name ∧ (e.inDtype = true ↔ d.col.name = "Mass" ∨ ptype ∈ stored h d.col) ∧
      (ptype ∈ stored h d.col → h.npart ptype ≠ 0 → e.width = d.width ∧
        ∃ p q, pre ++ block enc named h d ++ post = p ++ (d.items ptype).flatten ++ q ∧ e.offset = p.length) := by
  obtain ⟨s1, s2, s3⟩ := scan_spec h ptype (stored h d.col) (0, 0)
  have hN : (scan h ptype (stored h d.col)).2 = ((stored h d.col).map h.npart).sum := by
    unfold scan; rw [s1]; simp
  have hin : (decide (d.col.name = "Mass") || (stored h d.col).contains ptype) = true ↔
      d.col.name = "Mass" ∨ ptype ∈ stored h d.col := by simp
  by_cases h0 : ((stored h d.col).map h.npart).sum = 0
  · have hb : block enc named h d = [] := if_pos h0
    unfold columnStep
    simp only [ptypesOf_eq, hN, h0, hb]
    have : ∃ e, elemSize d.col none = .ok e := by
      unfold elemSize; cases d.col.elem <;> exact ⟨_, rfl⟩
    obtain ⟨e, he⟩ := this
    refine ⟨⟨d.col.name, pre.length, e * d.col.shape, d.col.name = "Mass" || (stored h d.col).contains ptype⟩,
      ?_, rfl, hin, ?_⟩
    · simp [he]
    · intro hm hne
      exfalso
      have := List.single_le_sum (l := (stored h d.col).map h.npart) (by simp) (h.npart ptype)
        (List.mem_map_of_mem hm)
      omega
  · have hb : block enc named h d = (if named then d.nameRecord else []) ++ record enc (payload h d) := if_neg h0
    have hpl : (payload h d).length = ((stored h d.col).map h.npart).sum * d.width :=
      payload_length h d.width d.items _ hv.count hv.size
    obtain ⟨e, he1, he2⟩ := elemSize_width named h d hv
    generalize hNN : ((stored h d.col).map h.npart).sum = N at *
    -- bytes before the record
    obtain ⟨pre', hpre', hbytes⟩ : ∃ pre', (if named then pre.length + 4 + 8 + 4 else pre.length) = pre'.length ∧
        pre ++ block enc named h d ++ post = pre' ++ record enc (payload h d) ++ post := by
      refine ⟨pre ++ (if named then d.nameRecord else []), ?_, by rw [hb]; simp⟩
      cases named with
      | true => have := hv.name rfl; simp [this]
      | false => simp
    have hm1 : readMarker dec (pre' ++ record enc (payload h d) ++ post) pre'.length = .ok (payload h d).length := by
      have := readMarker_at dec pre' (enc (payload h d).length) (payload h d ++ enc (payload h d).length ++ post) (hel _)
      rw [hdec] at this
      unfold record
      rw [← this]
      congr 1
      simp
    have hm2 : readMarker dec (pre' ++ record enc (payload h d) ++ post) (pre'.length + 4 + (payload h d).length) =
        .ok (payload h d).length := by
      have := readMarker_at dec (pre' ++ enc (payload h d).length ++ payload h d) (enc (payload h d).length) post (hel _)
      rw [hdec] at this
      simp only [List.length_append, hel] at this
      unfold record
      rw [← this]
      congr 1
      simp
    have hit : (payload h d).length / N = d.width := by
      rw [hpl]; exact Nat.mul_div_cancel_left _ (by omega)
    refine ⟨⟨d.col.name, pre'.length + 4 + (scan h ptype (stored h d.col)).1 * d.width, e * d.col.shape,
      d.col.name = "Mass" || (stored h d.col).contains ptype⟩, ?_, rfl, hin, ?_⟩
    · unfold columnStep
      simp only [ptypesOf_eq, hN]
      rw [if_pos h0, hpre', hbytes]
      simp only [hm1, bind, Except.bind, hm2, hit]
      rw [if_neg (by rw [hpl]; simp), he1]
      simp only [pure, Except.pure]
      congr 2
      rw [hb]
      unfold record
      simp only [List.length_append, hel]
      have : pre'.length = pre.length + (if named then d.nameRecord else []).length := by
        rw [← hpre']
        cases named with
        | true => have := hv.name rfl; simp [this]
        | false => simp
      omega
    · intro hm hne
      refine ⟨he2, ?_⟩
      obtain ⟨l, r, hlr⟩ := List.append_of_mem hm
      have hnd := hv.nodup
      rw [hlr] at hnd
      have hr : ptype ∉ r := by
        have := (List.nodup_append.mp hnd).2.1
        exact (List.nodup_cons.mp this).1
      have hrel : (scan h ptype (stored h d.col)).1 = (l.map h.npart).sum := by
        have := s3 l r hlr hr
        unfold scan
        rw [this]; simp
      have hl : ((l.map fun i => (d.items i).flatten).flatten).length = (l.map h.npart).sum * d.width :=
        payload_length h d.width d.items l (fun i hi => hv.count i (by rw [hlr]; simp [hi]))
          (fun i hi => hv.size i (by rw [hlr]; simp [hi]))
      refine ⟨pre' ++ enc (payload h d).length ++ (l.map fun i => (d.items i).flatten).flatten,
        (r.map fun i => (d.items i).flatten).flatten ++ enc (payload h d).length ++ post, ?_, ?_⟩
      · rw [hbytes]
        unfold record
        have : payload h d = (l.map fun i => (d.items i).flatten).flatten ++ (d.items ptype).flatten ++
            (r.map fun i => (d.items i).flatten).flatten := by
          unfold payload; rw [hlr]; simp
        conv_lhs => rw [show pre' ++ (enc (payload h d).length ++ payload h d ++ enc (payload h d).length) ++ post =
          pre' ++ enc (payload h d).length ++ payload h d ++ (enc (payload h d).length ++ post) by simp]
        generalize enc (payload h d).length = m
        rw [this]
        simp
      · simp only [List.length_append, hel, hl, hrel]

/-- The whole file behind the header. -/
theorem columnLoop_spec {β : Type} (enc : Nat → List β) (dec : List β → Nat) (hel : ∀ n, (enc n).length = 4)
    (named : Bool) (h : Header) (ptype : Nat) (ds : List (Data β))
    (hdec : ∀ d ∈ ds, dec (enc (payload h d).length) = (payload h d).length)
    (hv : ∀ d ∈ ds, Valid named h d) (pre post : List β) :
    ∃ es, columnLoop dec (pre ++ (ds.map (block enc named h)).flatten ++ post) named h ptype pre.length (ds.map Data.col) =
        .ok es ∧ es.length = ds.length ∧
      ∀ (k : Nat) (d : Data β) (e : Entry), ds[k]? = some d → es[k]? = some e →
        e.name = d.col.name ∧ (e.inDtype = true ↔ d.col.name = "Mass" ∨ ptype ∈ stored h d.col) ∧
        (ptype ∈ stored h d.col → h.npart ptype ≠ 0 → e.width = d.width ∧
          ∃ p q, pre ++ (ds.map (block enc named h)).flatten ++ post = p ++ (d.items ptype).flatten ++ q ∧
            e.offset = p.length) := by
  induction ds generalizing pre with
  | nil => exact ⟨[], rfl, rfl, by simp⟩
  | cons d ds ih =>
    have hsplit : pre ++ ((d :: ds).map (block enc named h)).flatten ++ post =
        pre ++ block enc named h d ++ ((ds.map (block enc named h)).flatten ++ post) := by simp
    have hsplit2 : pre ++ ((d :: ds).map (block enc named h)).flatten ++ post =
        (pre ++ block enc named h d) ++ (ds.map (block enc named h)).flatten ++ post := by simp
    obtain ⟨e, e1, e2⟩ := columnStep_spec enc dec hel named h ptype d (hdec d (by simp)) (hv d (by simp)) pre
      ((ds.map (block enc named h)).flatten ++ post)
    obtain ⟨es, i1, i2, i3⟩ := ih (fun x hx => hdec x (by simp [hx])) (fun x hx => hv x (by simp [hx])) (pre ++ block enc named h d)
    rw [← hsplit] at e1 e2
    rw [← hsplit2, List.length_append] at i1
    rw [← hsplit2] at i3
    refine ⟨e :: es, ?_, by simp [i2], ?_⟩
    · simp only [List.map_cons, columnLoop, bind, Except.bind]
      simp only [List.map_cons] at e1 i1
      rw [e1]
      simp only [i1]
      rfl
    · intro k d' e' hk he
      cases k with
      | zero => simp at hk he; subst hk he; exact e2
      | succ k => simp at hk he; exact i3 k d' e' hk he

/-- C30: for every snapshot written as Fortran records (with or without block names), every particle type and every column
of that type, reading rows `start..stop` with any positive step returns exactly the items of that type in that block. For the
masses this includes the case of a header mass. -/
theorem gadget_reads {β : Type} (enc : Nat → List β) (dec : List β → Nat) (hel : ∀ n, (enc n).length = 4)
    (named : Bool) (h : Header) (ptype : Nat) (ds : List (Data β))
    (hdec : ∀ d ∈ ds, dec (enc (payload h d).length) = (payload h d).length)
    (hv : ∀ d ∈ ds, Valid named h d) (header post massItem : List β)
    (hh : header.length = 264 + (if named then 16 else 0)) :
    ∃ es, openGadget dec (header ++ (ds.map (block enc named h)).flatten ++ post) named h ptype (ds.map Data.col) = .ok es ∧
      es.length = ds.length ∧
      ∀ (k : Nat) (d : Data β) (e : Entry), ds[k]? = some d → es[k]? = some e →
        (e.inDtype = true ↔ d.col.name = "Mass" ∨ ptype ∈ stored h d.col) ∧
        ∀ (a b : Nat) (c : Int), a ≤ b → b ≤ h.npart ptype → 0 < c →
          (ptype ∈ stored h d.col → ¬ (d.col.name = "Mass" ∧ h.massZero ptype = false) →
            readColumn (header ++ (ds.map (block enc named h)).flatten ++ post) h ptype massItem e a b c =
              .ok (PySlice.rowsAt (d.items ptype) (PySlice.walk a b c))) ∧
          (d.col.name = "Mass" ∧ h.massZero ptype = false →
            readColumn (header ++ (ds.map (block enc named h)).flatten ++ post) h ptype massItem e a b c =
              .ok (List.replicate (PySlice.walk a b c).length massItem)) := by
  obtain ⟨es, h1, h2, h3⟩ := columnLoop_spec enc dec hel named h ptype ds hdec hv header post
  refine ⟨es, ?_, h2, ?_⟩
  · unfold openGadget
    rw [← h1, hh]
  · intro k d e hk he
    obtain ⟨g1, g2, g3⟩ := h3 k d e hk he
    have hd := hv d (List.mem_of_getElem? hk)
    refine ⟨g2, ?_⟩
    intro a b c hab hb hc
    have hsz := FileIO.sliceSize_partial a b c (Or.inl ⟨hc, by omega⟩)
    have hck : ¬ ((b : Int) > h.npart ptype ∨ (a : Int) > h.npart ptype ∨ (a : Int) < 0 ∨ (b : Int) < 0) := by omega
    have hck2 : ¬ (c = 0 ∨ FileIO.getSliceSize a b c < 0) := by omega
    constructor
    · intro hm hnm
      unfold readColumn
      rw [if_neg hck, if_neg hck2, g1, if_neg hnm]
      by_cases hz : h.npart ptype = 0
      · have hab0 : a = 0 ∧ b = 0 := by omega
        obtain ⟨rfl, rfl⟩ := hab0
        have hw : PySlice.walk ((0 : Nat) : Int) ((0 : Nat) : Int) c = [] := by
          rw [PySlice.walk_pos _ _ _ hc, if_neg (by omega)]
        have hn : FileIO.getSliceSize ((0 : Nat) : Int) ((0 : Nat) : Int) c = 0 := by rw [hsz, hw]; rfl
        have : FileIO.binRead (header ++ (ds.map (block enc named h)).flatten ++ post) e.offset e.width
            ((0 : Nat) : Int) ((0 : Nat) : Int) c = .ok [] := by
          unfold FileIO.binRead
          rw [if_neg (by omega)]
          simp only [hn]
          rw [if_neg (by omega)]
          have hp : ¬ ((e.offset : Int) + ((0 : Nat) : Int) * e.width < 0) := by simp
          rw [if_neg hp]
          have hf : ∀ p w, FileIO.fromfile (header ++ (ds.map (block enc named h)).flatten ++ post) p w
              (((0 : Nat) : Int) - ((0 : Nat) : Int)) = [] := by
            intro p w; unfold FileIO.fromfile; simp
          rw [hf]
          have he := (FileIO.everyStep_slice ([] : List (List β)) 0 0 c hc (by omega) (by simp)).1
          simp at he
          rw [he]
          have hw' : PySlice.walk (0 : Int) 0 c = [] := hw
          rw [hw']
          rfl
        rw [this, hw]
        rfl
      · obtain ⟨g4, p, q, g5, g6⟩ := g3 hm hz
        rw [g5, g4, g6, FileIO.binRead_column p q d.width hd.pos _ (hd.size ptype hm) a b c hc hab
          (by rw [hd.count ptype hm]; exact hb)]
    · intro hnm
      unfold readColumn
      rw [if_neg hck, if_neg hck2, g1, if_pos hnm, hsz]
      simp

/-- C30, rejection: if a snapshot opens, then every block that exists has equal markers, a whole number of particles. -/
theorem gadget_markers {β : Type} (dec : List β → Nat) (bytes : List β) (named : Bool) (h : Header) (ptype ptr : Nat)
    (c : Col) (ptr' : Nat) (e : Entry) (hok : columnStep dec bytes named h ptype ptr c = .ok (ptr', e))
    (hN : ((stored h c).map h.npart).sum ≠ 0) :
    ∃ a, readMarker dec bytes (ptr + (if named then 16 else 0)) = .ok a ∧
      readMarker dec bytes (ptr + (if named then 16 else 0) + 4 + a) = .ok a ∧
      ((stored h c).map h.npart).sum ∣ a ∧ ptr' = ptr + (if named then 16 else 0) + 4 + a + 4 := by
  have hs : (scan h ptype (stored h c)).2 = ((stored h c).map h.npart).sum := by
    unfold scan; rw [(scan_spec h ptype (stored h c) (0, 0)).1]; simp
  have hp : (if named = true then ptr + 4 + 8 + 4 else ptr) = ptr + (if named = true then 16 else 0) := by
    cases named <;> rfl
  unfold columnStep at hok
  simp only [ptypesOf_eq, hs] at hok
  rw [if_pos hN, hp] at hok
  cases h1 : readMarker dec bytes (ptr + (if named then 16 else 0)) with
  | error x => simp only [h1, bind, Except.bind] at hok; cases hok
  | ok a =>
    simp only [h1, bind, Except.bind] at hok
    cases h2 : readMarker dec bytes (ptr + (if named then 16 else 0) + 4 + a) with
    | error x => simp only [h2] at hok; cases hok
    | ok b =>
      simp only [h2] at hok
      split at hok
      · cases hok
      · rename_i hab
        push Not at hab
        obtain ⟨rfl, hab2⟩ := hab
        split at hok
        · cases hok
        · simp only [pure, Except.pure, Except.ok.injEq, Prod.mk.injEq] at hok
          exact ⟨a, rfl, h2, ⟨_, hab2⟩, hok.1.symm⟩

/-- C30 is false for a given (not 'auto') element size: it is not compared with the item size of the record. Two particles
with 8 byte items, read as 4 byte items: no error, and the rows are halves of items. -/
theorem gadget_precision_unchecked (hd : List Nat) (hh : hd.length = 264) :
    let h : Header := ⟨fun i => if i = 1 then 2 else 0, fun _ => true⟩
    let bytes : List Nat := hd ++ [16, 0, 0, 0] ++ [1, 2, 3, 4, 5, 6, 7, 8] ++ [11, 12, 13, 14, 15, 16, 17, 18]
      ++ [16, 0, 0, 0]
    let c : Col := ⟨"Energy", 1, some 4, true, []⟩
    openGadget (fun m => m.headD 0) bytes false h 1 [c] = .ok [⟨"Energy", 268, 4, true⟩] ∧
    readColumn bytes h 1 [] ⟨"Energy", 268, 4, true⟩ 0 2 1 = .ok [[1, 2, 3, 4], [5, 6, 7, 8]] := by
  intro h bytes c
  have hb : bytes = hd ++ [[16, 0, 0, 0]].flatten ++
      ([1, 2, 3, 4, 5, 6, 7, 8] ++ [11, 12, 13, 14, 15, 16, 17, 18] ++ [16, 0, 0, 0]) := by simp [bytes]
  constructor
  · have m1 : readMarker (fun m => m.headD 0) bytes 264 = .ok 16 := by
      have := readMarker_at (fun m : List Nat => m.headD 0) (hd) [16, 0, 0, 0]
        ([1, 2, 3, 4, 5, 6, 7, 8] ++ [11, 12, 13, 14, 15, 16, 17, 18] ++ [16, 0, 0, 0]) rfl
      rw [hh] at this
      rw [hb]
      simpa using this
    have m2 : readMarker (fun m => m.headD 0) bytes 284 = .ok 16 := by
      have := readMarker_at (fun m : List Nat => m.headD 0) (hd ++ [16, 0, 0, 0] ++
        [1, 2, 3, 4, 5, 6, 7, 8] ++ [11, 12, 13, 14, 15, 16, 17, 18]) [16, 0, 0, 0] [] rfl
      simp only [List.length_append, hh, List.length_cons, List.length_nil, List.append_nil] at this
      exact this
    have hs : scan h 1 (stored h c) = (0, 2) := by decide
    unfold openGadget columnLoop columnLoop columnStep
    simp only [ptypesOf_eq, hs]
    simp only [bind, Except.bind, Bool.false_eq_true, if_false, Nat.add_zero]
    rw [show 256 + 4 + 4 = 264 by rfl, m1]
    simp only
    rw [show 264 + 4 + 16 = 284 by rfl, m2]
    simp only
    rfl
  · have hr := FileIO.binRead_reads (hd ++ [16, 0, 0, 0])
      ([11, 12, 13, 14, 15, 16, 17, 18] ++ [16, 0, 0, 0]) 4 (by omega) [[1, 2, 3, 4], [5, 6, 7, 8]] (by simp) 0 2
      (by omega) (by simp)
    have hb2 : bytes = hd ++ [16, 0, 0, 0] ++ [[1, 2, 3, 4], [5, 6, 7, 8]].flatten ++
        ([11, 12, 13, 14, 15, 16, 17, 18] ++ [16, 0, 0, 0]) := by simp [bytes]
    rw [← hb2] at hr
    simp only [List.length_append, hh, List.length_cons, List.length_nil] at hr
    unfold readColumn
    rw [if_neg (by decide), if_neg (by decide), if_neg (by decide)]
    have hr' : FileIO.binRead bytes 268 4 0 2 1 = .ok [[1, 2, 3, 4], [5, 6, 7, 8]] := hr
    simp only [hr']

/-- Non-vacuity of `gadget_reads`: types 0 and 1 with one and two particles, 4 byte items. -/
example : ∃ (h : Header) (d : Data Nat), Valid false h d ∧ h.npart 1 = 2 ∧ 1 ∈ stored h d.col ∧
    d.items 1 = [[5, 6, 7, 8], [9, 10, 11, 12]] ∧
    ([(payload h d).length, 0, 0, 0] : List Nat).headD 0 = (payload h d).length := by
  refine ⟨⟨fun i => if i = 0 then 1 else if i = 1 then 2 else 0, fun _ => true⟩,
    ⟨⟨"ID", 1, none, true, []⟩, 4, fun i => if i = 0 then [[1, 2, 3, 4]] else if i = 1 then [[5, 6, 7, 8], [9, 10, 11, 12]] else [], []⟩,
    ?_, rfl, by decide, rfl, rfl⟩
  refine ⟨by decide, by decide, by decide, by decide, by decide, ?_, by decide⟩
  simp

end NBK.Gadget
