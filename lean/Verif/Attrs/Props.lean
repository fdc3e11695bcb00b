import Verif.Attrs.Lemmas
import Verif.Json.Props

set_option linter.unusedSimpArgs false

/-! C91: attributes of catalogs and meshes are read back from the file they were saved to. -/
namespace NBK.Attrs
open NBK.Json (V J Sc enc dec WF Keeps norm)

/-- The values that come back: arrays, texts that do not start with the mark of JSON, and objects that JSON can hold, whose
text is parsed as it was printed. -/
def Good (c : Codec) : Val → Prop
  | .arr _ _ _ => True
  | .text s => tag.isPrefixOf s = false
  | .obj v => WF v ∧ ∀ j, enc v = .ok j → c.parse (c.print j) = some j

/-- A value as `BigFile` returns it. -/
def flat : Val → Val
  | .arr dt _ data => .arr dt [data.length] data
  | .text s => .text s
  | .obj v => .obj (norm v)

/-- A value as `BigFileMesh` returns it. -/
def squeezed : Val → Val
  | .arr dt _ data => .arr dt (if data.length = 1 then [] else [data.length]) data
  | .text s => .text s
  | .obj v => .obj (norm v)

theorem readFile_tag (c : Codec) (t : Text) : readFile c (.text (tag ++ t)) = loads c (tag ++ t) := by
  simp only [readFile, tag_prefix, if_pos]

theorem readMesh_tag (c : Codec) (t : Text) : readMesh c (.text (tag ++ t)) = loads c (tag ++ t) := by
  simp only [readMesh, tag_prefix, if_pos]

theorem store_read (c : Codec) (v : Val) (h : Good c v) :
    ∃ s, storeCat c v = .ok s ∧ readFile c s = .ok (flat v) ∧ readMesh c s = .ok (squeezed v) := by
  cases v with
  | arr dt sh data => exact ⟨_, rfl, rfl, rfl⟩
  | text s =>
    have h' : tag.isPrefixOf s = false := h
    exact ⟨_, rfl, by simp [readFile, h', flat], by simp [readMesh, h', squeezed]⟩
  | obj v =>
    obtain ⟨hw, hc⟩ := h
    obtain ⟨j, h1, h2⟩ := NBK.Json.roundtrip_aux v hw
    have hl : loads c (tag ++ c.print j) = .ok (.obj (norm v)) := by
      unfold loads
      rw [tag_drop, hc j h1]
      simp only [h2]
    refine ⟨.text (tag ++ c.print j), ?_, ?_, ?_⟩
    · simp only [storeCat, setAttr, dumps, h1]
    · rw [readFile_tag]; exact hl
    · rw [readMesh_tag]; exact hl

/-! ### Catalogs -/

theorem mem_fold (hs blocks : List String) (h : String) : ∀ r : List String,
    h ∈ hs.foldl (fun r h => if h ∈ blocks then (if h ∈ r then r else r ++ [h]) else r) r ↔
      h ∈ r ∨ (h ∈ hs ∧ h ∈ blocks) := by
  induction hs with
  | nil => intro r; simp
  | cons a hs ih =>
    intro r
    rw [List.foldl_cons, ih]
    by_cases ha : a ∈ blocks
    · rw [if_pos ha]
      by_cases hr : a ∈ r
      · rw [if_pos hr]
        constructor
        · rintro (h | h)
          · exact .inl h
          · exact .inr ⟨by simp [h.1], h.2⟩
        · rintro (h | ⟨h, hb⟩)
          · exact .inl h
          · rcases List.mem_cons.mp h with rfl | h
            · exact .inl hr
            · exact .inr ⟨h, hb⟩
      · rw [if_neg hr]
        simp only [List.mem_append, List.mem_cons, List.not_mem_nil, or_false]
        constructor
        · rintro ((h | rfl) | h)
          · exact .inl h
          · exact .inr ⟨.inl rfl, ha⟩
          · exact .inr ⟨.inr h.1, h.2⟩
        · rintro (h | ⟨rfl | h, hb⟩)
          · exact .inl (.inl h)
          · exact .inl (.inr rfl)
          · exact .inr ⟨h, hb⟩
    · rw [if_neg ha]
      simp only [List.mem_cons]
      constructor
      · rintro (h | h)
        · exact .inl h
        · exact .inr ⟨.inr h.1, h.2⟩
      · rintro (h | ⟨rfl | h, hb⟩)
        · exact .inl h
        · exact absurd hb ha
        · exact .inr ⟨h, hb⟩

/-- C91: the blocks searched are the given headers that exist, and the dataset. -/
theorem headers_mem (header : Option (List String)) (blocks : List String) (ds h : String) :
    h ∈ findHeaders header blocks ds ↔
      (h ∈ header.getD ["Header", "header", "."] ∧ h ∈ blocks) ∨ h = ds ++ "/." := by
  unfold findHeaders
  rw [List.mem_append, mem_fold]
  simp

theorem readInto_nil (f : Stored → Except Err Val) (d : Dict Val) : readInto f d [] = .ok d := rfl

theorem load_fold (c : Codec) (st : Dict Stored) (name : String) (hn : (keys st).Nodup)
    (hr : ∀ p ∈ st, ∃ v, readFile c p.2 = .ok v) (hs : List String) :
    ∀ d : Dict Val, (keys d).Nodup → ∃ m,
      hs.foldlM (fun d h => readInto (readFile c) d (if h = name then st else [])) d = .ok m ∧ (keys m).Nodup ∧
      ∀ k, m.lookup k = if name ∈ hs then
          (match st.lookup k with
            | some v => (readFile c v).toOption
            | none => d.lookup k)
        else d.lookup k := by
  induction hs with
  | nil => intro d hd; exact ⟨d, rfl, hd, fun k => by simp⟩
  | cons h hs ih =>
    intro d hd
    rw [List.foldlM_cons]
    by_cases hh : h = name
    · obtain ⟨r, h1, h2, h3⟩ := loop_ok (readFile c) st hn d hr hd
      obtain ⟨m, h4, h5, h6⟩ := ih r h2
      refine ⟨m, ?_, h5, ?_⟩
      · rw [if_pos hh]
        have : readInto (readFile c) d st = .ok r := h1
        rw [this]; exact h4
      · intro k
        have hin : name ∈ h :: hs := by rw [hh]; exact List.mem_cons_self
        rw [h6 k, h3 k]
        simp only [if_pos hin]
        by_cases hm : name ∈ hs
        · simp only [if_pos hm]; cases st.lookup k <;> rfl
        · simp only [if_neg hm]; cases st.lookup k <;> rfl
    · obtain ⟨m, h4, h5, h6⟩ := ih d hd
      refine ⟨m, ?_, h5, ?_⟩
      · rw [if_neg hh, readInto_nil]; exact h4
      · intro k
        rw [h6 k]
        have : (name ∈ h :: hs) ↔ name ∈ hs := by
          rw [List.mem_cons]
          exact ⟨fun x => x.resolve_left fun e => hh e.symm, .inr⟩
        simp only [this]

/-- C91, partial: a catalog is saved to a new file and opened again, with a dataset of any name, any other blocks, and
attributes `user` given by the user. Every attribute is back, flattened to one dimension; there are no others, and those
given by the user have precedence. Missing: the shapes of arrays and texts with the mark of JSON, see below. -/
theorem catalog_partial (c : Codec) (attrs user : Dict Val) (hn : (keys attrs).Nodup) (hu : (keys user).Nodup)
    (hg : ∀ p ∈ attrs, Good c p.2) (blocks : List String) (hb : "Header" ∈ blocks) (ds : String) :
    ∃ st m, saveCat c [] attrs = .ok st ∧
      loadCat c (fun h => if h = "Header" then st else []) (findHeaders none blocks ds) user = .ok m ∧
      ∀ k, m.lookup k = (user.lookup k).or ((attrs.lookup k).map flat) := by
  have hs : ∀ p ∈ attrs, ∃ s, storeCat c p.2 = .ok s := fun p hp => by
    obtain ⟨s, h, _⟩ := store_read c p.2 (hg p hp); exact ⟨s, h⟩
  obtain ⟨st, h1, h2, h3⟩ := loop_ok (storeCat c) attrs hn [] hs (by simp [keys])
  have look : ∀ k v, attrs.lookup k = some v → ∃ s, st.lookup k = some s ∧ readFile c s = .ok (flat v) := by
    intro k v hv
    obtain ⟨s, e1, e2, _⟩ := store_read c v (hg _ (mem_of_lookup attrs k v hv))
    refine ⟨s, ?_, e2⟩
    rw [h3 k, hv]
    simp only [e1]; rfl
  have hr : ∀ p ∈ st, ∃ v, readFile c p.2 = .ok v := by
    intro p hp
    have hl := lookup_of_mem st h2 p.1 p.2 hp
    cases ha : attrs.lookup p.1 with
    | none => rw [h3 p.1, ha] at hl; simp at hl
    | some v =>
      obtain ⟨s, e1, e2⟩ := look p.1 v ha
      rw [hl] at e1; cases e1
      exact ⟨_, e2⟩
  obtain ⟨m, h4, h5, h6⟩ := load_fold c st "Header" h2 hr (findHeaders none blocks ds) [] (by simp [keys])
  refine ⟨st, update (update [] m) user, h1, ?_, ?_⟩
  · unfold loadCat loadFile
    rw [h4]; rfl
  · intro k
    rw [update_lookup user hu, update_lookup m h5, h6 k,
      if_pos ((headers_mem none blocks ds "Header").mpr (.inl ⟨by simp, hb⟩))]
    cases ha : attrs.lookup k with
    | none =>
      have : st.lookup k = none := by rw [h3 k, ha]; rfl
      rw [this]; simp
    | some v =>
      obtain ⟨s, e1, e2⟩ := look k v ha
      rw [e1]; simp [e2, Except.toOption]

/-- C91: if several headers are given, the last one with the attribute decides, and a header without it changes nothing. -/
theorem last_header (c : Codec) (file : String → Dict Stored) (hs : List String) (h : String) (d : Dict Val)
    (hd : loadFile c file hs = .ok d) (hdn : (keys d).Nodup) (hn : (keys (file h)).Nodup)
    (hr : ∀ p ∈ file h, ∃ v, readFile c p.2 = .ok v) :
    ∃ m, loadFile c file (hs ++ [h]) = .ok m ∧
      (∀ k s v, (file h).lookup k = some s → readFile c s = .ok v → m.lookup k = some v) ∧
      ∀ k, (file h).lookup k = none → m.lookup k = d.lookup k := by
  obtain ⟨r, h1, _, h3⟩ := loop_ok (readFile c) (file h) hn d hr hdn
  refine ⟨r, ?_, ?_, ?_⟩
  · unfold loadFile at hd ⊢
    rw [List.foldlM_append, hd]
    have : readInto (readFile c) d (file h) = .ok r := h1
    simp only [bind, Except.bind, List.foldlM_cons, List.foldlM_nil, this]
    rfl
  · intro k s v hs hv
    rw [h3 k, hs]; simp only [hv]; rfl
  · intro k hk
    rw [h3 k, hk]

/-- Values that come back exactly: arrays with one dimension, texts, and objects that JSON keeps. -/
def Exact : Val → Prop
  | .arr _ shape data => shape = [data.length]
  | .text _ => True
  | .obj v => Keeps v

/-- C91: values that are not changed. -/
theorem flat_exact (v : Val) : Exact v → flat v = v := by
  cases v with
  | arr dt sh data => intro h; have h' : sh = [data.length] := h; rw [h']; rfl
  | text s => intro _; rfl
  | obj v => intro h; exact congrArg Val.obj (NBK.Json.norm_keeps v h)

/-- C91: `CatalogSource.save` raises ValueError if and only if an attribute is neither a text nor an array and has no
JSON text. -/
theorem catalog_error (c : Codec) (old : Dict Stored) (attrs : Dict Val) :
    (∃ e, saveCat c old attrs = .error e) ↔ ∃ k v e, (k, Val.obj v) ∈ attrs ∧ enc v = .error e := by
  have := loop_error (storeCat c) attrs old
  rw [show saveCat c old attrs = loop (storeCat c) old attrs from rfl, this]
  constructor
  · rintro ⟨⟨k, v⟩, hp, e, he⟩
    cases v with
    | arr dt sh data => simp [storeCat, setAttr] at he
    | text s => simp [storeCat, setAttr] at he
    | obj v =>
      cases hv : enc v with
      | ok j => simp [storeCat, setAttr, dumps, hv] at he
      | error e => exact ⟨k, v, e, hp, hv⟩
  · rintro ⟨k, v, e, hp, he⟩
    exact ⟨_, hp, .valueError, by simp [storeCat, setAttr, dumps, he]⟩

/-- C91 fails for numbers: a number is read back as an array of one item. -/
theorem number_array (c : Codec) (dt : String) (x : Sc) :
    ∃ s, storeCat c (.arr dt [] [x]) = .ok s ∧ readFile c s = .ok (.arr dt [1] [x]) := ⟨_, rfl, rfl⟩

/-- C91 fails for `Nmesh`: a catalog with `attrs['Nmesh'] = n` gives a mesh in three dimensions, but once it was saved and
opened again the mesh has one dimension. -/
theorem nmesh_one (c : Codec) (n : Int) :
    meshDims (.arr "<i8" [] [.int n]) = some 3 ∧
    ∃ s v, storeCat c (.arr "<i8" [] [.int n]) = .ok s ∧ readFile c s = .ok v ∧ meshDims v = some 1 :=
  ⟨rfl, _, _, rfl, rfl, rfl⟩

/-- C91 fails for matrices: they are read back as vectors. -/
theorem matrix_flat (c : Codec) (dt : String) (n m : Nat) (data : List Sc) (h : data.length = n * m) :
    ∃ s, storeCat c (.arr dt [n, m] data) = .ok s ∧ readFile c s = .ok (.arr dt [n * m] data) :=
  ⟨_, rfl, by rw [← h]; rfl⟩

/-- C91 fails for texts that start with `json://`: they are not read as texts, and if the rest is not JSON the file cannot be
opened. -/
theorem tagged_text (c : Codec) (t : Text) :
    ∃ s, storeCat c (.text (tag ++ t)) = .ok s ∧ (∀ u, readFile c s ≠ .ok (.text u)) ∧
      (c.parse t = none → readFile c s = .error .jsonError ∧ readMesh c s = .error .jsonError) := by
  refine ⟨_, rfl, ?_, ?_⟩
  · intro u h
    rw [readFile_tag] at h
    unfold loads at h
    split at h
    · cases h
    · split at h <;> cases h
  · intro hp
    have : loads c (tag ++ t) = .error .jsonError := by unfold loads; rw [tag_drop, hp]
    exact ⟨by rw [readFile_tag]; exact this, by rw [readMesh_tag]; exact this⟩

/-- C91 fails if the file exists: the attributes of the catalog saved before stay in the header. -/
theorem stale (c : Codec) (old : Dict Stored) (ho : (keys old).Nodup) (attrs : Dict Val) (hn : (keys attrs).Nodup)
    (hg : ∀ p ∈ attrs, Good c p.2) (k : String) (hk : attrs.lookup k = none) :
    ∃ st, saveCat c old attrs = .ok st ∧ st.lookup k = old.lookup k := by
  obtain ⟨st, h1, _, h3⟩ := loop_ok (storeCat c) attrs hn old (fun p hp => by
    obtain ⟨s, h, _⟩ := store_read c p.2 (hg p hp); exact ⟨s, h⟩) ho
  exact ⟨st, h1, by rw [h3 k, hk]⟩

/-! ### Meshes -/

/-- The names of the attributes that describe the mesh. -/
def own : List String := ["ndarray.shape", "BoxSize", "Nmesh"]

/-- The attribute has no JSON text. -/
def Lost : Val → Prop
  | .obj v => ∃ e, enc v = .error e
  | _ => False

/-- The attributes of the mesh itself, as they are written first. -/
def pre (cshape nmesh : List Nat) (box : List Sc) : Dict Stored :=
  [("ndarray.shape", .arr "<i8" (ints cshape)), ("BoxSize", .arr "<f8" box), ("Nmesh", .arr "<i8" (ints nmesh))]

theorem store_lost (c : Codec) (v : Val) : Lost v → storeCat c v = .error .valueError := by
  cases v with
  | arr => exact False.elim
  | text => exact False.elim
  | obj v => rintro ⟨e, he⟩; simp [storeCat, setAttr, dumps, he]

theorem storeMesh_fold (c : Codec) (l : Dict Val) (hn : (keys l).Nodup) (hg : ∀ p ∈ l, Good c p.2 ∨ Lost p.2) :
    ∀ r : Dict Stored × List String, (keys r.1).Nodup →
      (keys (l.foldl (storeMesh c) r).1).Nodup ∧
      (∀ k, (l.foldl (storeMesh c) r).1.lookup k = (r.1.lookup k).or ((l.lookup k).bind fun v => (storeCat c v).toOption)) ∧
      ∀ k, k ∈ (l.foldl (storeMesh c) r).2 ↔ k ∈ r.2 ∨ (r.1.lookup k = none ∧ ∃ v, l.lookup k = some v ∧ Lost v) := by
  induction l with
  | nil => intro r hr; exact ⟨hr, fun k => by simp, fun k => by simp⟩
  | cons p l ih =>
    obtain ⟨a, b⟩ := p
    have hk' : a ∉ keys l ∧ (keys l).Nodup := by simpa [keys] using hn
    have hla : l.lookup a = none := (lookup_none l a).mpr hk'.1
    have hne : ∀ k, k ≠ a → List.lookup k ((a, b) :: l) = l.lookup k := by
      intro k hka
      have hb : (k == a) = false := by simpa using hka
      rw [List.lookup_cons, hb]
    have heq : List.lookup a ((a, b) :: l) = some b := by simp [List.lookup_cons]
    intro r hr
    rw [List.foldl_cons]
    have ih' := ih hk'.2 (fun q hq => hg q (by simp [hq]))
    by_cases hs : (r.1.lookup a).isSome
    · have e : storeMesh c r (a, b) = r := by unfold storeMesh; rw [if_pos hs]
      rw [e]
      obtain ⟨i1, i2, i3⟩ := ih' r hr
      refine ⟨i1, ?_, ?_⟩
      · intro k
        rw [i2 k]
        by_cases hka : k = a
        · subst hka
          obtain ⟨w, hw⟩ := Option.isSome_iff_exists.mp hs
          rw [hw]; simp
        · rw [hne k hka]
      · intro k
        rw [i3 k]
        by_cases hka : k = a
        · subst hka
          have : r.1.lookup k ≠ none := fun h => by rw [h] at hs; simp at hs
          simp [this]
        · rw [hne k hka]
    · have hnone : r.1.lookup a = none := Option.not_isSome_iff_eq_none.mp hs
      rcases hg (a, b) (by simp) with hgood | hlost
      · obtain ⟨s, e1, _⟩ := store_read c b hgood
        have e : storeMesh c r (a, b) = (put r.1 a s, r.2) := by
          unfold storeMesh; rw [if_neg hs]; simp only [e1]
        rw [e]
        obtain ⟨i1, i2, i3⟩ := ih' (put r.1 a s, r.2) (keys_put r.1 a s hr)
        have hnl : ¬ Lost b := fun h => by rw [store_lost c b h] at e1; cases e1
        refine ⟨i1, ?_, ?_⟩
        · intro k
          rw [i2 k, lookup_put]
          by_cases hka : k = a
          · subst hka
            rw [if_pos rfl, hnone, heq]
            simp [e1, Except.toOption]
          · rw [if_neg hka, hne k hka]
        · intro k
          rw [i3 k, lookup_put]
          by_cases hka : k = a
          · subst hka
            rw [heq]
            simp only [if_pos, Option.some.injEq]
            constructor
            · rintro (h | ⟨h, _⟩)
              · exact .inl h
              · cases h
            · rintro (h | ⟨_, v, rfl, hv⟩)
              · exact .inl h
              · exact absurd hv hnl
          · rw [if_neg hka, hne k hka]
      · have e1 := store_lost c b hlost
        have e : storeMesh c r (a, b) = (r.1, r.2 ++ [a]) := by
          unfold storeMesh; rw [if_neg hs]; simp only [e1]
        rw [e]
        obtain ⟨i1, i2, i3⟩ := ih' (r.1, r.2 ++ [a]) hr
        refine ⟨i1, ?_, ?_⟩
        · intro k
          rw [i2 k]
          by_cases hka : k = a
          · subst hka
            rw [hla, heq, hnone]
            simp [e1, Except.toOption]
          · rw [hne k hka]
        · intro k
          rw [i3 k]
          by_cases hka : k = a
          · subst hka
            rw [heq]
            constructor
            · intro _; exact .inr ⟨hnone, b, rfl, hlost⟩
            · intro _; exact .inl (by simp)
          · rw [hne k hka]
            simp [hka]

/-- C91, partial: a mesh of any shape with any attributes is saved and opened again, with attributes `user` given by the
user. The shape of the stored array, the box and the number of cells are those of the field that was stored, whatever the
attributes of the mesh say. Every other attribute is back (without the dimension of arrays of one item), and has precedence
over that of the user, except those without a JSON text; a warning names exactly those. Missing: the shapes of arrays and
texts with the mark of JSON. -/
theorem mesh_partial (c : Codec) (cshape nmesh : List Nat) (box : List Sc) (attrs user : Dict Val)
    (hn : (keys attrs).Nodup) (hu : (keys user).Nodup) (hg : ∀ p ∈ attrs, Good c p.2 ∨ Lost p.2) :
    ∃ m, loadMesh c (saveMesh c cshape nmesh box attrs).1 user = .ok m ∧
      m.lookup "ndarray.shape" = some (squeezed (.arr "<i8" [cshape.length] (ints cshape))) ∧
      m.lookup "BoxSize" = some (squeezed (.arr "<f8" [box.length] box)) ∧
      m.lookup "Nmesh" = some (squeezed (.arr "<i8" [nmesh.length] (ints nmesh))) ∧
      (∀ k v, k ∉ own → attrs.lookup k = some v → Good c v → m.lookup k = some (squeezed v)) ∧
      (∀ k, k ∉ own → (∀ v, attrs.lookup k = some v → Lost v) → m.lookup k = user.lookup k) ∧
      ∀ k, k ∈ (saveMesh c cshape nmesh box attrs).2 ↔ k ∉ own ∧ ∃ v, attrs.lookup k = some v ∧ Lost v := by
  have hp : saveMesh c cshape nmesh box attrs = attrs.foldl (storeMesh c) (pre cshape nmesh box, []) := rfl
  obtain ⟨i1, i2, i3⟩ := storeMesh_fold c attrs hn hg (pre cshape nmesh box, []) (by simp [pre, keys])
  rw [← hp] at i1 i2 i3
  generalize saveMesh c cshape nmesh box attrs = r at i1 i2 i3
  have hpre : ∀ k, k ∉ own → (pre cshape nmesh box).lookup k = none := by
    intro k hk
    rw [lookup_none]
    simpa [pre, keys, own] using hk
  have hr : ∀ p ∈ r.1, ∃ v, readMesh c p.2 = .ok v := by
    intro p hp
    have hl := lookup_of_mem r.1 i1 p.1 p.2 hp
    rw [i2 p.1] at hl
    cases hq : (pre cshape nmesh box).lookup p.1 with
    | some s =>
      rw [hq] at hl
      have hs : s = p.2 := by simpa using hl
      have := mem_of_lookup _ _ _ hq
      simp only [pre, List.mem_cons, Prod.mk.injEq, List.not_mem_nil, or_false] at this
      rw [← hs]
      rcases this with h | h | h <;> (rw [h.2]; exact ⟨_, rfl⟩)
    | none =>
      rw [hq] at hl
      cases ha : attrs.lookup p.1 with
      | none => rw [ha] at hl; simp at hl
      | some v =>
        rw [ha] at hl
        rcases hg _ (mem_of_lookup attrs p.1 v ha) with h | h
        · obtain ⟨s, e1, _, e2⟩ := store_read c v h
          have hs : s = p.2 := by simpa [e1, Except.toOption] using hl
          rw [← hs]; exact ⟨_, e2⟩
        · simp [store_lost c v h, Except.toOption] at hl
  obtain ⟨m, h1, h2, h3⟩ := loop_ok (readMesh c) r.1 i1 (update [] user) hr (update_nodup user [] (by simp [keys]))
  have hown : ∀ k s, (pre cshape nmesh box).lookup k = some s → m.lookup k = (readMesh c s).toOption := by
    intro k s hs
    rw [h3 k, i2 k, hs]; rfl
  refine ⟨m, h1, ?_, ?_, ?_, ?_, ?_, ?_⟩
  · rw [hown _ _ (show _ = some (.arr "<i8" (ints cshape)) from rfl)]; rfl
  · rw [hown _ _ (show _ = some (.arr "<f8" box) from rfl)]; rfl
  · rw [hown _ _ (show _ = some (.arr "<i8" (ints nmesh)) from rfl)]; rfl
  · intro k v hk ha hgv
    obtain ⟨s, e1, _, e2⟩ := store_read c v hgv
    have : r.1.lookup k = some s := by
      rw [i2 k, hpre k hk, ha]; simp [e1, Except.toOption]
    rw [h3 k, this]; simp only [e2]; rfl
  · intro k hk hl
    have : r.1.lookup k = none := by
      rw [i2 k, hpre k hk]
      cases ha : attrs.lookup k with
      | none => rfl
      | some v => simp [store_lost c v (hl v ha), Except.toOption]
    rw [h3 k, this, update_lookup user hu]
    simp
  · intro k
    rw [i3 k]
    constructor
    · rintro (h | ⟨h1, h2⟩)
      · simp at h
      · refine ⟨?_, h2⟩
        intro hk
        rw [lookup_none] at h1
        exact h1 (by simpa [pre, keys, own] using hk)
    · rintro ⟨h1, h2⟩
      exact .inr ⟨hpre k h1, h2⟩

/-- C91: the mesh that is opened has as many dimensions as the one that was saved, if this is not one. -/
theorem mesh_dims (nmesh : List Nat) (h : nmesh.length ≠ 1) :
    meshDims (squeezed (.arr "<i8" [nmesh.length] (ints nmesh))) = some nmesh.length := by
  simp [squeezed, ints, h, meshDims]

/-- C91 fails for a mesh in one dimension: it is opened as a mesh in three dimensions. -/
theorem mesh_one (n : Nat) : meshDims (squeezed (.arr "<i8" [1] (ints [n]))) = some 3 := rfl

/-- C91 fails for arrays of one item in the attributes of a mesh: they lose their dimension. -/
theorem mesh_one_item (dt : String) (x : Sc) : squeezed (.arr dt [1] [x]) = .arr dt [] [x] := rfl

/-- The theorems are not empty: a codec for `None`, a catalog with a vector, a text and `None`. -/
theorem example_good : ∃ (c : Codec) (attrs : Dict Val), (keys attrs).Nodup ∧ (∀ p ∈ attrs, Good c p.2 ∧ Exact p.2) ∧
    attrs.length = 3 := by
  refine ⟨⟨fun _ => ['n'], fun _ => some .null⟩,
    [("BoxSize", .arr "<f8" [2] [.flt (.num 1), .flt (.num 2)]), ("mode", .text ['x']), ("empty", .obj .none)], ?_, ?_, rfl⟩
  · simp [keys]
  · intro p hp
    simp only [List.mem_cons, List.not_mem_nil, or_false] at hp
    rcases hp with rfl | rfl | rfl
    · exact ⟨trivial, rfl⟩
    · exact ⟨rfl, trivial⟩
    · refine ⟨⟨by simp [WF], ?_⟩, by simp [Exact, Keeps]⟩
      intro j hj
      have : j = .null := by
        have h' : (Except.ok J.null : Except NBK.Json.Err J) = .ok j := by rw [← hj]; rfl
        cases h'; rfl
      rw [this]

/-- The theorems are not empty: bytes in an object have no JSON text. -/
theorem example_lost : Lost (.obj (.list [.arr "|S1" [1] [.bytes "a"]])) := ⟨_, rfl⟩

end NBK.Attrs
