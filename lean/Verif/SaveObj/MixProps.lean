import Verif.SaveObj.FailProps

/-!
# What stays in a file, what a file hides, and results that are computed later (C139)
-/
set_option linter.unusedSimpArgs false
namespace NBK.SaveObj
open NBK.Attrs (Codec Dict Val Stored)
variable {V : Type}

theorem headers_mem (f : File V) (a : LoadArgs) (h : Name) :
    h ∈ headers f a ↔ (h ∈ a.header.getD [["Header"], ["header"], ["."]] ∧ (f.lookup h).isSome) ∨ h = a.dataset ++ ["."] := by
  unfold headers
  rw [List.mem_append, List.mem_singleton]
  have : ∀ (hs r : List Name), h ∈ hs.foldl (fun r h => if (f.lookup h).isSome then (if h ∈ r then r else r ++ [h]) else r) r ↔ h ∈ r ∨ (h ∈ hs ∧ (f.lookup h).isSome) := by
    intro hs
    induction hs with
    | nil => intro r; simp
    | cons x hs ih =>
      intro r
      rw [List.foldl_cons, ih]
      by_cases hx : (f.lookup x).isSome
      · rw [if_pos hx]
        by_cases hm : x ∈ r
        · rw [if_pos hm]
          constructor
          · rintro (h | h)
            · exact Or.inl h
            · exact Or.inr ⟨List.mem_cons_of_mem _ h.1, h.2⟩
          · rintro (h | h)
            · exact Or.inl h
            · rcases List.mem_cons.mp h.1 with rfl | h'
              · exact Or.inl hm
              · exact Or.inr ⟨h', h.2⟩
        · rw [if_neg hm, List.mem_append, List.mem_singleton]
          constructor
          · rintro ((h | rfl) | h)
            · exact Or.inl h
            · exact Or.inr ⟨List.mem_cons_self, hx⟩
            · exact Or.inr ⟨List.mem_cons_of_mem _ h.1, h.2⟩
          · rintro (h | h)
            · exact Or.inl (Or.inl h)
            · rcases List.mem_cons.mp h.1 with rfl | h'
              · exact Or.inl (Or.inr rfl)
              · exact Or.inr ⟨h', h.2⟩
      · rw [if_neg hx]
        constructor
        · rintro (h | h)
          · exact Or.inl h
          · exact Or.inr ⟨List.mem_cons_of_mem _ h.1, h.2⟩
        · rintro (h | h)
          · exact Or.inl h
          · rcases List.mem_cons.mp h.1 with rfl | h'
            · exact absurd h.2 hx
            · exact Or.inr ⟨h', h.2⟩
  rw [this]
  simp

/-- A plain name is shown whenever its block is there. -/
theorem shows_plain (fs : FS V) (path : String) (ds : Name) (user : Dict Val) (s : String) (hs : s ∉ reserved) (b : Block V) (hb : fs.block path (ds ++ [s]) = some b) :
    Shows fs path { dataset := ds, attrs := user } [s] b := by
  refine ⟨hb, ?_⟩
  unfold excluded
  simp only [Option.getD_none]
  rw [headers_mem]
  simp only [reserved, List.mem_cons, List.not_mem_nil, or_false, not_or] at hs
  rintro (⟨h, _⟩ | h)
  · simp only [Option.getD_none, List.mem_cons, List.cons.injEq, and_true, List.not_mem_nil, or_false] at h
    rcases h with h | h | h
    · exact hs.1 h
    · exact hs.2.1 h
    · exact hs.2.2 h
  · cases ds with
    | nil => simp only [List.nil_append, List.cons.injEq, and_true] at h; exact hs.2.2 h
    | cons d ds =>
      have := congrArg List.length h
      simp at this

/-- C139: blocks named `Header`, `header` or `.` at the root are never columns, unless asked for. -/
theorem hidden (fs : FS V) (path : String) (user : Dict Val) (s : String) (hs : s ∈ reserved) (b : Block V) : ¬ Shows fs path { attrs := user } [s] b := by
  rintro ⟨h1, h2⟩
  apply h2
  unfold excluded
  simp only [Option.getD_none]
  rw [headers_mem]
  left
  refine ⟨by simpa [reserved] using hs, ?_⟩
  have h1' : fs.block path [s] = some b := h1
  unfold FS.block at h1'
  cases hf : fs path with
  | none => rw [hf] at h1'; cases h1'
  | some f =>
    rw [hf] at h1'
    simp only [Option.bind_some] at h1'
    simp only [Option.getD_some, h1']
    rfl

/-- **A block of another size stays in the file** (C139, negation): `save` into an existing file succeeds, but the file cannot be loaded any more. -/
theorem other_size (c : Codec) (zero : V) (fs : FS V) (hok : fs.Ok) (cat : Cat V) (path : String) (a : Args) (order : List (Name × Col V) → List ((Name × Col V) × Chunk))
    (l : List (Name × Col V)) (hl : chosen cat a = .ok l) (hn : (names l).Nodup) (hs : Storable c cat a) (ha : Apart path l) (ho : Covers cat.sizes.length l (order l))
    (hread : ∀ p ∈ l, Readable fs cat.sizes.length p.2.expr)
    (s t : String) (hsr : s ∉ reserved) (htr : t ∉ reserved) (x : Col V) (hx : (a.dataset ++ [s], x) ∈ l) (b : Block V) (hb : fs.block path (a.dataset ++ [t]) = some b)
    (hnot : a.dataset ++ [t] ∉ names l) (hhead : a.header ≠ some (a.dataset ++ [t])) (hsz : b.size ≠ total cat.sizes.length x.expr) :
    ∃ fs', save c zero fs cat path a order = (fs', none) ∧ ∀ (D : Defaults V) (P : Nat) (user : Dict Val),
      load c D P fs' path { dataset := a.dataset, attrs := user } = .error .inconsistent := by
  let vs : Name × Col V → List V := fun p => (values fs cat.sizes.length p.2.expr).getD []
  have hv : ∀ p ∈ l, values fs cat.sizes.length p.2.expr = some (vs p) := by
    intro p hp
    obtain ⟨u, hu⟩ := (readable_iff _ _ _).mp (hread p hp)
    simp only [vs, hu, Option.getD_some]
  obtain ⟨fs', s1, s2, s3, _, _⟩ := save_partial c zero fs cat path a order l hl hn hs ha ho vs hv
  refine ⟨fs', s1, fun D P user => ?_⟩
  have hok' : fs'.Ok := by
    have := save_ok c zero fs hok cat path a order
    rw [s1] at this
    exact this
  have h1 := s2 _ hx
  have h2 : fs'.block path (a.dataset ++ [t]) = some b := by
    rw [s3 path _ (by rintro ⟨_, h | h⟩; exacts [hnot h, hhead h])]
    exact hb
  have hfile : ∃ f, fs' path = some f := by
    cases hf : fs' path with
    | none => unfold FS.block at h2; rw [hf] at h2; cases h2
    | some f => exact ⟨f, rfl⟩
  obtain ⟨f, hf⟩ := hfile
  refine load_inconsistent c D P fs' hok' path f hf _ [s] [t] _ b (shows_plain fs' path a.dataset user s hsr _ h1) (shows_plain fs' path a.dataset user t htr b h2) ?_
  rw [(values_spec fs cat.sizes.length x.expr _ (hv _ hx)).1]
  exact fun e => hsz e.symm

/-- **Another name of the header** (C139, negation): the attributes are then a block without rows beside the columns, and the file cannot be loaded without `header=`. -/
theorem other_header (c : Codec) (zero : V) (fs : FS V) (hok : fs.Ok) (cat : Cat V) (path : String) (hnew : fs path = none) (a : Args) (hds : a.dataset = [])
    (order : List (Name × Col V) → List ((Name × Col V) × Chunk)) (l : List (Name × Col V)) (hl : chosen cat a = .ok l) (hn : (names l).Nodup) (hs : Storable c cat a) (ha : Apart path l)
    (ho : Covers cat.sizes.length l (order l)) (hread : ∀ p ∈ l, Readable fs cat.sizes.length p.2.expr) (s h : String) (hsr : s ∉ reserved) (x : Col V) (hx : ([s], x) ∈ l)
    (hpos : 0 < total cat.sizes.length x.expr) (hhr : h ∉ reserved) (hh : a.header = some [h]) (hnot : [h] ∉ names l) :
    ∃ fs', save c zero fs cat path a order = (fs', none) ∧ (∀ (D : Defaults V) (P : Nat) (user : Dict Val), load c D P fs' path { attrs := user } = .error .inconsistent) ∧
      ∀ b, ¬ Shows fs' path { header := some [[h]] } [h] b := by
  let vs : Name × Col V → List V := fun p => (values fs cat.sizes.length p.2.expr).getD []
  have hv : ∀ p ∈ l, values fs cat.sizes.length p.2.expr = some (vs p) := by
    intro p hp
    obtain ⟨u, hu⟩ := (readable_iff _ _ _).mp (hread p hp)
    simp only [vs, hu, Option.getD_some]
  obtain ⟨fs', s1, s2, _, s4, _⟩ := save_partial c zero fs cat path a order l hl hn hs ha ho vs hv
  have hok' : fs'.Ok := by
    have := save_ok c zero fs hok cat path a order
    rw [s1] at this
    exact this
  have h1 := s2 _ hx
  have h2 := s4 [h] hh hnot
  have hb0 : fs.block path [h] = none := by unfold FS.block; rw [hnew]; rfl
  rw [hb0] at h2
  simp only [Option.map_none, Option.getD_none] at h2
  have hfile : ∃ f, fs' path = some f := by
    cases hf : fs' path with
    | none => unfold FS.block at h2; rw [hf] at h2; cases h2
    | some f => exact ⟨f, rfl⟩
  obtain ⟨f, hf⟩ := hfile
  refine ⟨fs', s1, fun D P user => ?_, ?_⟩
  · refine load_inconsistent c D P fs' hok' path f hf _ [s] [h] _ _ (shows_plain fs' path [] user s hsr _ h1) (shows_plain fs' path [] user h hhr _ h2) ?_
    rw [(values_spec fs cat.sizes.length x.expr _ (hv _ hx)).1]
    simp only
    omega
  · rintro b ⟨_, hb⟩
    apply hb
    unfold excluded
    simp only [Option.getD_none, hf, Option.getD_some]
    rw [headers_mem]
    left
    refine ⟨by simp, ?_⟩
    unfold FS.block at h2
    rw [hf] at h2
    simp only [Option.bind_some] at h2
    rw [h2]; rfl

/-- What a successful `load` says about the file. -/
theorem load_inv (c : Codec) (D : Defaults V) (P : Nat) (fs : FS V) (hok : fs.Ok) (path : String) (a : LoadArgs) (cat : Cat V) (h : load c D P fs path a = .ok cat) :
    ∃ f N d, fs path = some f ∧ (∀ n b, Shows fs path a n b → b.size = N) ∧ (∃ n b, Shows fs path a n b) ∧ readAttrs c f (headers f a) = .ok d := by
  unfold load at h
  cases hf : fs path with
  | none => rw [hf] at h; cases h
  | some f =>
    rw [hf] at h
    dsimp only at h
    have hmem := columnsOf_mem fs hok path f hf a
    cases hc : columnsOf f a with
    | nil => rw [hc] at h; cases h
    | cons p l =>
      rw [hc] at h hmem
      dsimp only at h
      by_cases hs : l.any fun q => q.2.size ≠ p.2.size
      · rw [if_pos hs] at h; cases h
      · rw [if_neg hs] at h
        cases hr : readAttrs c f (headers f a) with
        | error e => rw [hr] at h; cases h
        | ok d =>
          refine ⟨f, p.2.size, d, rfl, fun n b hb => ?_, ⟨p.1, p.2, (hmem _ _).mp List.mem_cons_self⟩, hr⟩
          rcases List.mem_cons.mp ((hmem n b).mpr hb) with rfl | hm
          · rfl
          · rw [Bool.not_eq_true, List.any_eq_false] at hs
            have := hs _ hm
            simpa using this

/-- C139: whatever was written, and by whom: a column of a loaded catalog has the rows of the block of its name; columns that an earlier `save` left are shown beside the new ones. -/
theorem shown_rows (c : Codec) (D : Defaults V) (P : Nat) (hP : 0 < P) (fs : FS V) (hok : fs.Ok) (path : String) (ds : Name) (user : Dict Val) (cat : Cat V)
    (h : load c D P fs path { dataset := ds, attrs := user } = .ok cat) (s : String) (hs : s ∉ reserved) (b : Block V) (hb : fs.block path (ds ++ [s]) = some b)
    (hfull : b.data.length = b.size) : rows fs cat [s] = some b.data := by
  obtain ⟨f, N, d, h1, h2, h3, h4⟩ := load_inv c D P fs hok path _ cat h
  exact loaded_rows c D P hP fs hok path f h1 _ N h2 h3 d h4 cat h [s] b (shows_plain fs path ds user s hs b hb) hfull

/-- C139: attributes of columns are written to their blocks, but not read from there. -/
theorem attrs_forgotten (c : Codec) (D : Defaults V) (P : Nat) (fs : FS V) (hok : fs.Ok) (path : String) (a : LoadArgs) (cat : Cat V) (h : load c D P fs path a = .ok cat) :
    ∀ p ∈ cat.cols, p.2.attrs = [] := by
  obtain ⟨f, N, d, h1, h2, h3, h4⟩ := load_inv c D P fs hok path _ cat h
  obtain ⟨q, g1, _, _⟩ := load_spec c D P fs hok path f h1 a N h2 h3 d h4
  rw [g1] at h
  injection h with h
  subst h
  intro p hp
  simp only [withDefaults, List.mem_append, fileCols, List.mem_map] at hp
  rcases hp with ⟨_, _, rfl⟩ | ⟨_, _, rfl⟩ <;> rfl

/-- C139: `datasets` names blocks only for columns that are no default columns: with a name for each column, one default column among them is an error. -/
theorem datasets_default (cat : Cat V) (a : Args) (cs d : List Name) (hc : a.columns = some cs) (hd : a.datasets = some d) (hlen : d.length = cs.length)
    (hask : ∀ n ∈ cs, (cat.cols.lookup n).isSome) (n : Name) (hn : n ∈ cs) (x : Col V) (hx : cat.cols.lookup n = some x) (hdf : x.dflt = true) :
    chosen cat a = .error .valueError := by
  obtain ⟨r, hr⟩ : ∃ r, (cs.mapM fun c => (cat.cols.lookup c).map fun x => (c, x)) = some r := by
    clear hlen hn
    induction cs generalizing a with
    | nil => exact ⟨[], rfl⟩
    | cons c cs ih =>
      obtain ⟨r, hr⟩ := ih { a with columns := some cs } rfl hd fun x hx => hask x (List.mem_cons_of_mem _ hx)
      obtain ⟨y, hy⟩ := Option.isSome_iff_exists.mp (hask c List.mem_cons_self)
      exact ⟨(c, y) :: r, by rw [List.mapM_cons, hy, hr]; rfl⟩
  have hr' := (mapM_some _ _ _).mp hr
  have hl : r.length = cs.length := by simpa using (congrArg List.length hr').symm
  have hm : (n, x) ∈ r := by
    have : some (n, x) ∈ r.map some := by
      rw [← hr']
      exact List.mem_map.mpr ⟨n, hn, by rw [hx]; rfl⟩
    simpa using this
  unfold chosen
  rw [hc, hd]
  simp only [Option.getD_some]
  rw [hr]
  dsimp only
  rw [if_pos]
  have h1 : (r.filter fun p => !p.2.dflt).length < r.length := by
    have := List.length_filter_lt_length_iff_exists (p := fun p : Name × Col V => !p.2.dflt) (l := r)
    exact this.mpr ⟨(n, x), hm, by simp [hdf]⟩
  omega

/-- **Saved with `compute=False`** (C139): the writing done later writes what the columns are then. -/
theorem later (c : Codec) (zero : V) (fs : FS V) (cat : Cat V) (path : String) (a : Args) (l : List (Name × Col V)) (hl : chosen cat a = .ok l) (hn : (names l).Nodup)
    (hs : Storable c cat a) (ha : Apart path l) (o : List ((Name × Col V) × Chunk)) (ho : Covers cat.sizes.length l o) (F : FS V)
    (hF : ∀ p ∈ l, F.block path p.1 = (begin c cat.sizes.length fs cat path a).1.block path p.1) (vs : Name × Col V → List V)
    (hv : ∀ p ∈ l, values F cat.sizes.length p.2.expr = some (vs p)) :
    (begin c cat.sizes.length fs cat path a).2 = .ok l ∧ ∃ fs', writeAll zero path F o = (fs', true) ∧
      (∀ p ∈ l, fs'.block path p.1 = some ⟨(vs p).length, vs p, attrsAfter c cat.attrs a.header p⟩) ∧
      ∀ path' m, ¬ (path' = path ∧ m ∈ names l) → fs'.block path' m = F.block path' m := by
  refine ⟨begin_snd c cat.sizes.length fs cat path a l hl hs, ?_⟩
  obtain ⟨b1, _, _, _⟩ := begin_spec c cat.sizes.length fs cat path a l hl hn
  obtain ⟨fs', h1, h2⟩ := writeAll_spec zero cat.sizes.length path l hn F ha vs hv (attrsAfter c cat.attrs a.header) o [] F ho.sound
    ⟨fun _ _ _ => rfl, fun _ _ => rfl, fun x hx => (by cases hx), fun p hp => ⟨[], (hF p hp).trans (b1 p hp), Nat.zero_le _, fun x hx => (by cases hx)⟩⟩
  rw [List.nil_append] at h2
  refine ⟨fs', h1, fun p hp => ?_, h2.other⟩
  obtain ⟨d, e1, e2, e3⟩ := h2.block p hp
  obtain ⟨v1, v2⟩ := values_spec F cat.sizes.length p.2.expr (vs p) (hv p hp)
  have hd : d = vs p := by
    apply List.ext_getElem?
    intro k
    by_cases hk : k < total cat.sizes.length p.2.expr
    · obtain ⟨r, i, hr, hi, rfl⟩ := row_of _ p.2.expr k hk
      obtain ⟨ch, q1, q2, q3, q4⟩ := ho.complete p hp r i hr hi
      have := e3 _ q1 rfl (i - ch.first) (by simp only; omega)
      simp only [q2] at this
      rw [show offset p.2.expr r + ch.first + (i - ch.first) = offset p.2.expr r + i by omega] at this
      exact this
    · rw [List.getElem?_eq_none (by omega), List.getElem?_eq_none (by omega)]
  rw [e1, hd, v1]

end NBK.SaveObj
