import Verif.SaveObj.RoundProps

/-!
# What can be lost (C139): a file saved into itself, attributes that cannot be stored, blocks that stay; programs
-/
set_option linter.unusedSimpArgs false
namespace NBK.SaveObj
open NBK.Attrs (Codec Dict Val Stored)
variable {V : Type}

/-- A column which reads a block without rows has no rows. -/
theorem row_dead (fs : FS V) (e : Expr V) (x : String × Name) (hx : x ∈ e.reads) (hb : ∀ b, fs.block x.1 x.2 = some b → b.data = []) (r i : Nat) : e.row fs r i = none := by
  induction e with
  | mem => cases hx
  | disk p m lo len =>
    simp only [Expr.reads, List.mem_singleton] at hx
    subst hx
    simp only [Expr.row]
    by_cases hi : i < len.getD r 0
    · rw [if_pos hi]
      cases h : fs.block p m with
      | none => rfl
      | some b => simp [hb b h]
    · rw [if_neg hi]
  | map f e ih => simp only [Expr.row]; rw [ih hx]; rfl
  | zip f e1 e2 ih1 ih2 =>
    simp only [Expr.row]
    rcases List.mem_append.mp hx with h | h
    · rw [ih1 h]; rfl
    · cases e1.row fs r i with
      | none => rfl
      | some v => rw [ih2 h]; rfl

/-- While every column reads a block that has been created, nothing is written, and the first chunk with rows fails. -/
theorem writeAll_dead (zero : V) (path : String) (l : List (Name × Col V)) (hl : ∀ p ∈ l, ∃ x ∈ p.2.expr.reads, x.1 = path ∧ x.2 ∈ names l)
    (sz : Name × Col V → Nat) (A : Name × Col V → Dict Stored) (o : List ((Name × Col V) × Chunk)) (ho : ∀ x ∈ o, x.1 ∈ l) (hn : (names l).Nodup) (fs : FS V)
    (hb : ∀ p ∈ l, fs.block path p.1 = some ⟨sz p, [], A p⟩) :
    (∀ p ∈ l, (writeAll zero path fs o).1.block path p.1 = some ⟨sz p, [], A p⟩) ∧ ((writeAll zero path fs o).2 = false ↔ ∃ x ∈ o, 0 < x.2.num) := by
  induction o generalizing fs with
  | nil => exact ⟨hb, by simp [writeAll]⟩
  | cons x o ih =>
    obtain ⟨p, k⟩ := x
    have hp := ho (p, k) List.mem_cons_self
    simp only at hp
    obtain ⟨y, hy, hy1, hy2⟩ := hl p hp
    obtain ⟨q, hq, hq1⟩ := List.mem_map.mp hy2
    have hdead : ∀ r i, p.2.expr.row fs r i = none := row_dead fs p.2.expr y hy (by
      intro b h
      rw [hy1, ← hq1, hb q hq] at h
      injection h with h
      rw [← h])
    unfold writeAll
    by_cases hk : k.num = 0
    · have hw : writeChunk zero path p.1 p.2.expr fs k = some (fs.put path p.1 ⟨sz p, [], A p⟩) := by
        unfold writeChunk
        rw [hk, hb p hp]
        simp [writeAt]
      rw [hw]
      dsimp only
      obtain ⟨h1, h2⟩ := ih (fun x hx => ho x (List.mem_cons_of_mem _ hx)) (fs.put path p.1 ⟨sz p, [], A p⟩) (by
        intro q' hq'
        rw [block_put]
        by_cases e : q'.1 = p.1
        · rw [if_pos ⟨rfl, e⟩, same_name l hn q' p hq' hp e]
        · rw [if_neg (fun h => e h.2)]; exact hb q' hq')
      refine ⟨h1, h2.trans ⟨?_, ?_⟩⟩
      · rintro ⟨x, hx, h⟩; exact ⟨x, List.mem_cons_of_mem _ hx, h⟩
      · rintro ⟨x, hx, h⟩
        rcases List.mem_cons.mp hx with rfl | hx
        · simp only at h; omega
        · exact ⟨x, hx, h⟩
    · have hw : writeChunk zero path p.1 p.2.expr fs k = none := by
        unfold writeChunk
        obtain ⟨n, hn'⟩ : ∃ n, k.num = n + 1 := ⟨k.num - 1, by omega⟩
        rw [hn', List.range_succ_eq_map, List.mapM_cons, hdead]
        rfl
      rw [hw]
      exact ⟨hb, by simp only [true_iff]; exact ⟨(p, k), List.mem_cons_self, by simp only; omega⟩⟩

/-- **A catalog saved into the file it reads** (C139, negation): if every column that is saved reads a block which `save` creates, the rows are gone before they are read: `save` fails, and the
blocks have no rows. -/
theorem own_file (c : Codec) (zero : V) (fs : FS V) (cat : Cat V) (path : String) (a : Args) (order : List (Name × Col V) → List ((Name × Col V) × Chunk))
    (l : List (Name × Col V)) (hl : chosen cat a = .ok l) (hn : (names l).Nodup) (hs : Storable c cat a) (ho : Covers cat.sizes.length l (order l))
    (hown : ∀ p ∈ l, ∃ x ∈ p.2.expr.reads, x.1 = path ∧ x.2 ∈ names l) (hpos : ∃ p ∈ l, 0 < total cat.sizes.length p.2.expr) :
    ∃ fs', save c zero fs cat path a order = (fs', some .lost) ∧
      ∀ p ∈ l, fs'.block path p.1 = some ⟨total cat.sizes.length p.2.expr, [], attrsAfter c cat.attrs a.header p⟩ := by
  obtain ⟨b1, _, _, _⟩ := begin_spec c cat.sizes.length fs cat path a l hl hn
  obtain ⟨h1, h2⟩ := writeAll_dead zero path l hown (fun p => total cat.sizes.length p.2.expr) (attrsAfter c cat.attrs a.header) (order l) (fun x hx => (ho.sound x hx).1) hn _ b1
  have hf : (writeAll zero path (begin c cat.sizes.length fs cat path a).1 (order l)).2 = false := by
    rw [h2]
    obtain ⟨p, hp, hpos⟩ := hpos
    obtain ⟨r, i, hr, hi, _⟩ := row_of _ p.2.expr 0 hpos
    obtain ⟨k, hk, _, k2, k3⟩ := ho.complete p hp r i hr hi
    exact ⟨(p, k), hk, by simp only; omega⟩
  refine ⟨_, ?_, h1⟩
  unfold save
  dsimp only
  rw [begin_snd c cat.sizes.length fs cat path a l hl hs]
  dsimp only
  rw [hf]
  rfl

theorem lookup_keys {β : Type} (f : List (Name × β)) (n : Name) (h : n ∈ f.map Prod.fst) : (f.lookup n).isSome := by
  by_contra hc
  exact (lookup_none f n).mp (Option.not_isSome_iff_eq_none.mp hc) h

/-- The keys of a loaded catalog are different. -/
theorem withDefaults_keys (D : Defaults V) (hD : (D.map Prod.fst).Nodup) (sizes : List Nat) (cols : List (Name × Col V)) (hc : (keysOf cols).Nodup) :
    ((withDefaults D sizes cols).map Prod.fst).Nodup := by
  unfold withDefaults
  rw [List.map_append, List.map_map]
  refine List.nodup_append.mpr ⟨hc, ?_, ?_⟩
  · exact (List.Sublist.map Prod.fst (List.filter_sublist (p := fun p => (cols.lookup p.1).isNone) (l := D))).nodup hD
  · intro x hx y hy e
    subst e
    obtain ⟨p, hp, hpe⟩ := List.mem_map.mp hy
    have h1 := (List.mem_filter.mp hp).2
    have h2 := lookup_keys cols x hx
    simp only [Function.comp] at hpe
    rw [hpe] at h1
    rw [Option.isNone_iff_eq_none.mp h1] at h2
    cases h2

/-- A column of a loaded catalog that is no default column is a block of the file. -/
theorem loaded_col (D : Defaults V) (sizes : List Nat) (path : String) (la : LoadArgs) (P N : Nat) (q : List (Name × Block V)) (n : Name) (x : Col V)
    (h : (withDefaults D sizes (fileCols path la P N q)).lookup n = some x) (hd : x.dflt = false) : x.expr = diskExpr path (la.dataset ++ n) N P ∧ (q.lookup n).isSome := by
  simp only [withDefaults] at h
  rw [List.lookup_append] at h
  cases hq : (fileCols path la P N q).lookup n with
  | some z =>
    rw [hq] at h
    simp only [Option.some_or, Option.some.injEq] at h
    subst h
    rw [fileCols_lookup] at hq
    obtain ⟨b, hb, he⟩ := Option.map_eq_some_iff.mp hq
    rw [← he, hb]
    exact ⟨rfl, rfl⟩
  | none =>
    rw [hq] at h
    simp only [Option.none_or] at h
    have := List.mem_map.mp (mem_of_lookup _ n x h)
    obtain ⟨p, _, he⟩ := this
    simp only [Prod.mk.injEq] at he
    rw [← he.2] at hd
    cases hd

/-- C139: a catalog that was loaded and is saved where it came from loses all its rows. -/
theorem load_then_save (c : Codec) (zero : V) (D : Defaults V) (hD : (D.map Prod.fst).Nodup) (P : Nat) (hP : 0 < P) (fs : FS V) (hok : fs.Ok) (path : String) (f : File V)
    (hf : fs path = some f) (la : LoadArgs) (N : Nat) (hN : 0 < N) (hs : ∀ n b, Shows fs path la n b → b.size = N) (hex : ∃ n b, Shows fs path la n b) (d : Dict Val)
    (hd : readAttrs c f (headers f la) = .ok d) (a : Args) (hcols : a.columns = none) (hds : a.dataset = la.dataset) (hdd : a.datasets = none)
    (order : List (Name × Col V) → List ((Name × Col V) × Chunk)) (ho : ∀ l, Covers P l (order l)) :
    ∃ cat, load c D P fs path la = .ok cat ∧ (Storable c cat a →
      ∃ fs', save c zero fs cat path a order = (fs', some .lost) ∧ ∀ n b, Shows fs path la n b → (b.data.length = b.size → rows fs cat n = some b.data) ∧ rows fs' cat n = none) := by
  obtain ⟨q, h1, h2, h3⟩ := load_spec c D P fs hok path f hf la N hs hex d hd
  refine ⟨_, h1, fun hst => ?_⟩
  have hPl : (sizesOf N P).length = P := by simp [sizesOf]
  have hk : (keysOf (fileCols path la P N q)).Nodup := by
    have : keysOf (fileCols path la P N q) = keysOf q := by
      unfold keysOf fileCols
      rw [List.map_map]
      rfl
    rw [this]; exact h2
  set cat : Cat V := ⟨sizesOf N P, withDefaults D (sizesOf N P) (fileCols path la P N q), Attrs.update (Attrs.update [] d) la.attrs⟩ with hcat
  have hask : asked cat a = cat.cols.map Prod.fst := by unfold asked; rw [hcols]; rfl
  have hnd : (asked cat a).Nodup := by rw [hask]; exact withDefaults_keys D hD _ _ hk
  obtain ⟨l, hl⟩ := chosen_ok cat a hdd (fun n hn => lookup_keys _ _ (by rw [hask] at hn; exact hn))
  obtain ⟨hm, hnn⟩ := chosen_spec cat a hdd l hl
  have hshow : ∀ n b, Shows fs path la n b → cat.cols.lookup n = some ⟨diskExpr path (la.dataset ++ n) N P, false, []⟩ := by
    intro n b hb
    have hq := (lookup_mem q h2 n b).mpr ((h3 n b).mpr hb)
    simp only [hcat, withDefaults]
    rw [List.lookup_append, fileCols_lookup, hq]
    rfl
  have hmem : ∀ n b, Shows fs path la n b → (la.dataset ++ n, (⟨diskExpr path (la.dataset ++ n) N P, false, []⟩ : Col V)) ∈ l := by
    intro n b hb
    refine (hm _).mpr ⟨n, _, ⟨?_, hshow n b hb, rfl⟩, by rw [hds]⟩
    rw [hask]
    exact List.mem_map.mpr ⟨_, mem_of_lookup _ _ _ (hshow n b hb), rfl⟩
  obtain ⟨fs', s1, s2⟩ := own_file c zero fs cat path a order l hl (hnn hnd) hst (by rw [show cat.sizes.length = P from hPl]; exact ho l) (by
    intro p hp
    obtain ⟨n, x, hw, rfl⟩ := (hm p).mp hp
    obtain ⟨e1, _⟩ := loaded_col D (sizesOf N P) path la P N q n x hw.2.1 hw.2.2
    refine ⟨(path, la.dataset ++ n), ?_, rfl, List.mem_map.mpr ⟨_, hp, by rw [hds]⟩⟩
    simp only [e1, diskExpr, Expr.reads, List.mem_singleton]) (by
    obtain ⟨n, b, hb⟩ := hex
    refine ⟨_, hmem n b hb, ?_⟩
    rw [show cat.sizes.length = P from hPl, disk_total _ _ _ _ hP]
    exact hN)
  refine ⟨fs', s1, fun n b hb => ⟨fun hfull => loaded_rows c D P hP fs hok path f hf la N hs hex d hd cat h1 n b hb hfull, ?_⟩⟩
  unfold rows
  rw [hshow n b hb]
  show values fs' cat.sizes.length (diskExpr path (la.dataset ++ n) N P) = none
  rw [show cat.sizes.length = P from hPl]
  by_contra hc
  obtain ⟨u, hu⟩ := Option.ne_none_iff_exists'.mp hc
  have hr := (readable_iff fs' P (diskExpr path (la.dataset ++ n) N P)).mpr ⟨u, hu⟩
  obtain ⟨r, i, hr1, hi, _⟩ := row_of P (diskExpr path (la.dataset ++ n) N P : Expr V) 0 (by rw [disk_total _ _ _ _ hP]; exact hN)
  have := hr r i hr1 hi
  rw [row_dead fs' _ (path, la.dataset ++ n) (by simp [diskExpr, Expr.reads]) (by
    intro b' hb'
    rw [s2 _ (hmem n b hb)] at hb'
    injection hb' with hb'
    rw [← hb'])] at this
  cases this

/-- **Attributes that cannot be stored** (C139, negation): `save` raises ValueError after the blocks have been created, so that the rows of an existing file are gone. -/
theorem bad_attr (c : Codec) (zero : V) (fs : FS V) (cat : Cat V) (path : String) (a : Args) (order : List (Name × Col V) → List ((Name × Col V) × Chunk))
    (l : List (Name × Col V)) (hl : chosen cat a = .ok l) (hn : (names l).Nodup) (hs : ¬ Storable c cat a) :
    ∃ fs', save c zero fs cat path a order = (fs', some .valueError) ∧
      ∀ p ∈ l, fs'.block path p.1 = some ⟨total cat.sizes.length p.2.expr, [], attrsAfter c cat.attrs a.header p⟩ := by
  obtain ⟨b1, _, _, _⟩ := begin_spec c cat.sizes.length fs cat path a l hl hn
  refine ⟨_, ?_, b1⟩
  have : (begin c cat.sizes.length fs cat path a).2 = .error .valueError := by
    unfold begin
    rw [hl]
    dsimp only
    rw [putHeader_snd, if_neg]
    unfold Storable at hs
    simp only [not_or] at hs
    rw [← storeAll_ok c [] cat.attrs] at hs
    simp [hs]
  unfold save
  dsimp only
  rw [this]

/-- C139: when the columns asked for are not there, or `datasets` has another length, nothing is touched. -/
theorem refused (c : Codec) (zero : V) (fs : FS V) (cat : Cat V) (path : String) (a : Args) (order : List (Name × Col V) → List ((Name × Col V) × Chunk)) (e : Err)
    (h : chosen cat a = .error e) : save c zero fs cat path a order = (fs, some e) := by
  unfold save begin
  rw [h]

theorem writeAll_path (zero : V) (path path' : String) (h : path' ≠ path) (fs : FS V) (o : List ((Name × Col V) × Chunk)) : (writeAll zero path fs o).1 path' = fs path' := by
  induction o generalizing fs with
  | nil => rfl
  | cons x o ih =>
    obtain ⟨p, k⟩ := x
    unfold writeAll
    cases hw : writeChunk zero path p.1 p.2.expr fs k with
    | none => rfl
    | some fs' =>
      dsimp only
      rw [ih]
      unfold writeChunk at hw
      rw [Option.bind_eq_some_iff] at hw
      obtain ⟨vs, _, hw⟩ := hw
      rw [Option.map_eq_some_iff] at hw
      obtain ⟨b, _, rfl⟩ := hw
      exact put_path _ _ _ _ _ h

/-- C139: whatever happens, `save` changes one file. -/
theorem save_path (c : Codec) (zero : V) (fs : FS V) (cat : Cat V) (path path' : String) (h : path' ≠ path) (a : Args) (order : List (Name × Col V) → List ((Name × Col V) × Chunk)) :
    (save c zero fs cat path a order).1 path' = fs path' := by
  have hb : (begin c cat.sizes.length fs cat path a).1 path' = fs path' := by
    unfold begin
    cases chosen cat a with
    | error e => rfl
    | ok l =>
      dsimp only
      have h0 : (if (fs path).isSome then fs else Function.update fs path (some []) : FS V) path' = fs path' := by
        by_cases hs : (fs path).isSome
        · rw [if_pos hs]
        · rw [if_neg hs, Function.update_of_ne h]
      cases a.header with
      | none => exact (createAll_path _ path path' _ l h).trans h0
      | some n => exact (put_path _ _ _ _ _ h).trans ((createAll_path _ path path' _ l h).trans h0)
  unfold save
  dsimp only
  cases hr : (begin c cat.sizes.length fs cat path a).2 with
  | error e => exact hb
  | ok l =>
    dsimp only
    rw [writeAll_path zero path path' h]
    exact hb

/-- C139: a path without a file is reported, whatever is asked for. -/
theorem no_file (c : Codec) (D : Defaults V) (P : Nat) (fs : FS V) (path : String) (a : LoadArgs) :
    fs path = none ↔ load c D P fs path a = .error .notFound := by
  unfold load
  cases fs path with
  | none => simp
  | some f =>
    simp only [reduceCtorEq, false_iff]
    cases columnsOf f a with
    | nil => simp
    | cons p l =>
      simp only
      split
      · simp
      · split <;> simp

end NBK.SaveObj
