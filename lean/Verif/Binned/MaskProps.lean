import Verif.Binned.Props

/-!
# Masks (C47) and coordinates of selections (C58)
-/
set_option linter.unusedSimpArgs false
namespace NBK.Binned
variable {A : Type}

theorem sliceEdges_all (e : List ℚ) (n : Nat) (he : e.length = n + 1) : sliceEdges e ((List.range n).map Int.ofNat) = .ok e := by
  rcases Nat.eq_zero_or_pos n with rfl | hn
  · match e, he with
    | [x], _ => rfl
  obtain ⟨r, h1, h2, h3, h4⟩ := sliceEdges_nat e n he (List.range n) (by simp)
  rw [h1]
  congr 1
  apply List.ext_getElem?
  intro k
  rw [List.length_range] at h2 h4
  by_cases hk : k < n
  · exact h3 k k (by rw [List.getElem?_range hk])
  · by_cases hk2 : k = n
    · have := h4 (n - 1) (by rw [List.getLast?_range, if_neg (by omega)])
      rw [Nat.sub_add_cancel (by omega)] at this
      rw [hk2]; exact this
    · rw [List.getElem?_eq_none (by omega), List.getElem?_eq_none (by omega)]

/-- `b[["a", "b"]]`: the edges stay, but the coordinates are replaced by the bin centers. -/
theorem getVars_eq (b : BS A) (hw : WF b) (names : List String) (hn : ∀ v ∈ names, v ∈ b.data.map Col.name) :
    ∃ data, getVars b names = .ok { b with data := data, coords := b.edges.map centers } ∧ data.map Col.name = names ∧ (∀ c ∈ data, c ∈ b.data) := by
  refine ⟨names.filterMap fun v => b.data.find? fun c => c.name = v, ?_, ?_, ?_⟩
  · unfold getVars
    rw [if_neg]
    · unfold finalize
      have : (b.edges.zip (b.shape.map fun n => (List.range n).map Int.ofNat)).mapM (fun p => sliceEdges p.1 p.2) = .ok b.edges := by
        rw [mapM_ok, List.forall₂_iff_get]
        refine ⟨by simp [shape_length, hw.ledges, hw.lcoords], fun i g1 g2 => ?_⟩
        have h1 : i < b.coords.length := by rw [hw.lcoords, ← hw.ledges]; exact g2
        have h2 : i < b.shape.length := by rw [shape_length]; exact h1
        simp only [List.get_eq_getElem, List.getElem_zip, List.getElem_map]
        apply sliceEdges_all
        have := hw.bins i _ _ (List.getElem?_eq_getElem g2) (List.getElem?_eq_getElem h1)
        simp only [BS.shape, List.getElem_map]
        exact this
      rw [this]
      rfl
    · rw [List.any_eq_true]
      rintro ⟨v, hv, h⟩
      exact (by simpa using h : v ∉ b.data.map Col.name) (by simpa using hn v hv)
  · induction names with
    | nil => rfl
    | cons v names ih =>
      obtain ⟨c, hc, hcn⟩ := List.mem_map.mp (hn v (by simp))
      have hs : (b.data.find? fun c => c.name = v).isSome := List.find?_isSome.mpr ⟨c, hc, by simpa using hcn⟩
      obtain ⟨d, hd⟩ := Option.isSome_iff_exists.mp hs
      rw [List.filterMap_cons, hd]
      dsimp only
      rw [List.map_cons, ih fun x hx => hn x (by simp [hx])]
      have := List.find?_some hd
      simp at this
      rw [this]
  · intro c hc
    obtain ⟨v, -, hv⟩ := List.mem_filterMap.mp hc
    exact List.mem_of_find?_eq_some hv

theorem getVars_wf (b : BS A) (hw : WF b) (data : List Col) (hd : ∀ c ∈ data, c ∈ b.data) :
    WF ({ b with data := data, coords := b.edges.map centers } : BS A) ∧ ({ b with data := data, coords := b.edges.map centers } : BS A).shape = b.shape := by
  have hs : ({ b with data := data, coords := b.edges.map centers } : BS A).shape = b.shape := by
    apply List.ext_getElem
    · simp [BS.shape, hw.ledges, hw.lcoords]
    · intro i g1 g2
      have h1 : i < b.coords.length := by rw [← shape_length]; exact g2
      have h2 : i < b.edges.length := by rw [hw.ledges, ← hw.lcoords]; exact h1
      have := hw.bins i _ _ (List.getElem?_eq_getElem h2) (List.getElem?_eq_getElem h1)
      simp only [BS.shape, List.getElem_map, centers_length]
      omega
  refine ⟨⟨hw.nodup, hw.ledges, by simpa using hw.ledges, ?_, fun c hc => by rw [hs]; exact hw.size c (hd c hc), by rw [hs]; exact hw.msize⟩, hs⟩
  intro i e c he hc
  dsimp only at he hc
  rw [List.getElem?_map, he, Option.map_some] at hc
  obtain rfl := Option.some.inj hc
  obtain ⟨h2, rfl⟩ := List.getElem?_eq_some_iff.mp he
  have h1 : i < b.coords.length := by rw [hw.lcoords, ← hw.ledges]; exact h2
  have := hw.bins i _ _ he (List.getElem?_eq_getElem h1)
  rw [centers_length]
  omega

/-! ## Every operation -/

theorem sel_sound {b r : BS A} {idx : List (List Nat)} {g : Nat → Prop} (h : IsSelection b r idx g) (hs : MaskSound b) : MaskSound r := by
  intro o ho c hc v hv hf
  obtain ⟨js, hjs, rfl⟩ := exists_flat r.shape o ho
  obtain ⟨k, hk, rfl⟩ := List.mem_iff_getElem.mp hc
  have hkb : k < b.data.length := by rw [← h.ndata]; exact hk
  obtain ⟨c', h1, h2, h3, h4⟩ := h.data k _ (List.getElem?_eq_getElem hkb)
  rw [List.getElem?_eq_getElem hk, Option.some_inj] at h1
  obtain ⟨h5, w, h6, h7⟩ := h4 js hjs
  rw [← h1, hv, Option.some_inj] at h7
  obtain ⟨m, h8, h9⟩ := h.mask js hjs
  rw [h9, ← h8]
  exact hs _ (flat_lt _ _ h5) _ (List.getElem_mem hkb) w h6 (by rw [← h7]; exact hf)

theorem sel_exact {b r : BS A} {idx : List (List Nat)} {g : Nat → Prop} (h : IsSelection b r idx g) (hs : MaskExact b)
    (hne : b.data ≠ []) : MaskExact r := by
  intro o ho
  refine ⟨?_, fun ⟨c, hc, v, hv, hf⟩ => sel_sound h hs.sound o ho c hc v hv hf⟩
  obtain ⟨js, hjs, rfl⟩ := exists_flat r.shape o ho
  obtain ⟨m, h8, h9⟩ := h.mask js hjs
  intro hm
  rw [h9, Option.some_inj] at hm
  subst hm
  have hval : Valid b.shape (srcIdx idx js) := by
    obtain ⟨c, hc⟩ := List.exists_mem_of_ne_nil _ hne
    obtain ⟨k, hk⟩ := List.mem_iff_getElem?.mp hc
    obtain ⟨c', -, -, -, h4⟩ := h.data k c hk
    exact (h4 js hjs).1
  obtain ⟨c, hc, v, hv, hf⟩ := (hs _ (flat_lt _ _ hval)).mp h8
  obtain ⟨k, hk⟩ := List.mem_iff_getElem?.mp hc
  obtain ⟨c', h1, h2, h3, h4⟩ := h.data k c hk
  obtain ⟨-, w, h6, h7⟩ := h4 js hjs
  rw [hv, Option.some_inj] at h6
  exact ⟨c', List.mem_of_getElem? h1, w, h7, by rw [← h6]; exact hf⟩

theorem keep_prod (b : BS A) (hw : WF b) (p : String → Bool)
    (h1 : ∀ (i : Nat) (d : String), b.dims[i]? = some d → p d = false → b.shape[i]? = some 1) : (b.keep p).shape.prod = b.shape.prod := by
  rw [keep_shape]
  exact keepBy_prod p b.dims b.shape (by rw [shape_length, hw.lcoords]) h1

theorem reindex_wf {oldNumpy : Bool} {b r : BS A} (hw : WF b) {dim : String} {spacing : ℚ} {weights : Weights} {force : Bool} {sum : List String}
    {i n f : Nat} (ha : ReindexArgs oldNumpy b dim spacing weights force sum i n f) (hr : reindex oldNumpy b dim spacing weights force sum = .ok r) :
    WF r ∧ MaskExact r := by
  obtain ⟨w, hwt, -⟩ := ha.weights
  obtain ⟨r', e, h1, h2, h3, h4, h5, h6, h7, h8, h9, h10, h11, h12⟩ := reindex_eq oldNumpy b hw dim spacing weights force sum i n f ha w hwt
  rw [hr] at h1
  obtain rfl := Except.ok.inj h1
  have hwr : WF r := by
    refine wf_reindexed hw i (n / f) _ _ h2 h5 h8 h9 h10 ?_
    intro c' hc'
    obtain ⟨k, hk, rfl⟩ := List.mem_iff_getElem.mp hc'
    obtain ⟨vals, v1, v2, -⟩ := h12 k _ (List.getElem?_eq_getElem (by rw [← h11]; exact hk))
    rw [List.getElem?_eq_getElem hk, Option.some_inj] at v1
    rw [v1]; simpa using v2
  exact ⟨hwr, (maskExact_eq r hwr).mpr h10⟩

theorem init_wf {dims : List String} {edges : List (List ℚ)} {dshape : List Nat} {data : List Col} {fts : List String}
    {coords : Option (List (Option (List ℚ)))} {attrs : A} {b : BS A} (hn : dims.Nodup) (he : ∀ e ∈ edges, e ≠ [])
    (hs : ∀ c ∈ data, c.vals.length = dshape.prod) (h : init dims edges dshape data fts coords attrs = .ok b) : WF b ∧ MaskExact b := by
  unfold init at h
  split at h
  · cases h
  rename_i h1
  split at h
  · cases h
  rename_i h2
  dsimp only at h
  split at h
  · cases h
  rename_i h3
  simp only [ne_eq, not_not] at h1 h2 h3
  have hb := (Except.ok.inj h).symm
  have hsh : b.shape = dshape := by rw [hb]; exact h3
  have hwb : WF b := by
    refine ⟨by rw [hb]; exact hn, by rw [hb]; exact h1.symm, by rw [hb]; simp [h1], ?_, ?_, ?_⟩
    · intro i e c hei hci
      have hd1 : b.shape[i]? = some c.length := by simp [BS.shape, hci]
      rw [hsh, h2] at hd1
      have hei' : edges[i]? = some e := by rw [hb] at hei; exact hei
      rw [List.getElem?_map, hei', Option.map_some, Option.some_inj] at hd1
      have := List.length_pos_iff.mpr (he e (List.mem_of_getElem? hei'))
      omega
    · rw [hsh, hb]; exact hs
    · rw [hsh, hb]; simp [maskOf]
  refine ⟨hwb, (maskExact_eq b hwb).mpr ?_⟩
  rw [hsh, hb]

theorem squeeze_wf {b r : BS A} (hw : WF b) {dim : String} (h : squeeze b dim = .ok r) :
    WF r ∧ r.shape.prod = b.shape.prod ∧ r.data = b.data ∧ r.mask = b.mask := by
  have h0 := h
  unfold squeeze at h
  dsimp only at h
  split at h
  · cases h
  rename_i h1
  split at h
  · cases h
  rename_i h2
  split at h
  · cases h
  rename_i h3
  simp only [ne_eq, not_not] at h2
  have hlt : b.dims.idxOf dim < b.dims.length := by omega
  have hdi : b.dims[b.dims.idxOf dim]? = some dim := by rw [List.getElem?_eq_getElem hlt, List.getElem_idxOf]
  have hsi : b.shape[b.dims.idxOf dim]? = some 1 := by
    have hl : b.dims.idxOf dim < b.shape.length := by rw [shape_length, hw.lcoords]; exact hlt
    rw [List.getD_eq_getElem _ _ hl] at h2
    rw [List.getElem?_eq_getElem hl, h2]
  have hsq := squeeze_eq b hw dim _ hdi hsi (by omega)
  rw [h0] at hsq
  obtain rfl := Except.ok.inj hsq
  have hk : ∀ (i : Nat) (d : String), b.dims[i]? = some d → decide (d ≠ dim) = false → b.shape[i]? = some 1 := by
    intro i d hd hp
    have : d = dim := by simpa using hp
    subst this
    rw [← (idxOf_iff b.dims hw.nodup d (List.mem_of_getElem? hd) i).mpr hd]
    exact hsi
  exact ⟨keep_wf b hw _ hk, keep_prod b hw _ hk, rfl, rfl⟩

theorem getitem_wf {b r : BS A} (hw : WF b) {keys : List Key} (ha : GetArgs b keys) (h : getitem b keys = .ok r) :
    WF r ∧ ∃ (s : BS A) (idx : List (List Nat)) (g : Nat → Prop), IsSelection b s idx g ∧ r.shape.prod = s.shape.prod ∧ r.data = s.data ∧ r.mask = s.mask := by
  obtain ⟨r', s, idx, p, h1, h2, h3, h4, h5, h6, h7, -, -⟩ := getitem_partial b hw keys ha
  rw [h] at h1
  obtain rfl := Except.ok.inj h1
  refine ⟨h2, s, idx, _, h7, ?_, by rw [h3]; rfl, by rw [h3]; rfl⟩
  rw [h3, keep_shape]
  apply keepBy_prod
  · rw [h7.shape, h7.dims]; simpa using h5
  · intro i d hd hp
    rw [h7.dims] at hd
    have hlt : i < idx.length := by rw [h5]; exact (List.getElem?_eq_some_iff.mp hd).1
    have hsel := h6 i _ (List.getElem?_eq_getElem hlt)
    have hint := h4 i d hd
    rw [hp] at hint
    rw [h7.shape, List.getElem?_map, List.getElem?_eq_getElem hlt, Option.map_some, Option.some_inj]
    cases hk : keyAt keys i with
    | int z => rw [hk] at hsel; obtain ⟨x, hx, -⟩ := hsel; rw [hx]; rfl
    | list z => rw [hk] at hint; simp [Key.isInt] at hint
    | slice z => rw [hk] at hint; simp [Key.isInt] at hint

theorem setitem_wf {b r : BS A} (hw : WF b) {key : String} {int : Bool} {vals : List Val} (h : setitem b key int vals = .ok r) :
    WF r ∧ r.shape = b.shape ∧ vals.length = b.shape.prod ∧ r.data = b.data.eraseP (fun c => c.name = key) ++ [⟨key, int, vals⟩] ∧
    ∀ o < b.shape.prod, (r.mask[o]? = some true ↔ b.mask[o]? = some true ∨ ∃ v, vals[o]? = some v ∧ v.isFinite = false) := by
  unfold setitem at h
  split at h
  · cases h
  rename_i h1
  simp only [ne_eq, not_not] at h1
  obtain rfl := Except.ok.inj h
  refine ⟨⟨hw.nodup, hw.ledges, hw.lcoords, hw.bins, ?_, ?_⟩, rfl, h1, rfl, ?_⟩
  · intro c hc
    rcases List.mem_append.mp hc with hc | hc
    · exact hw.size c (List.mem_of_mem_eraseP hc)
    · rw [List.mem_singleton.mp hc]; exact h1
  · simp [BS.shape]
  · intro o ho
    have hl : o < vals.length := by rw [h1]; exact ho
    have hm : o < b.mask.length := by rw [hw.msize]; exact ho
    dsimp only
    rw [List.getElem?_map, List.getElem?_range ho, Option.map_some, Option.some_inj, Bool.or_eq_true, List.getD_eq_getElem _ _ hl,
      List.getD_eq_getElem _ _ hm, List.getElem?_eq_getElem hl, List.getElem?_eq_getElem hm]
    simp

/-- Statistics that a program can make: `init` and every operation on the result. -/
inductive Reach : BS A → Prop where
  | init {dims edges dshape data fts coords attrs b} : dims.Nodup → (∀ e ∈ edges, e ≠ []) → (∀ c ∈ data, c.vals.length = dshape.prod) →
      init dims edges dshape data fts coords attrs = .ok b → Reach b
  | set {b r key int vals} : Reach b → setitem b key int vals = .ok r → Reach r
  | take {b r masks sels} : Reach b → TakeArgs b masks sels → take b masks sels = .ok r → Reach r
  | get {b r keys} : Reach b → GetArgs b keys → getitem b keys = .ok r → Reach r
  | vars {b r names} : Reach b → (∀ v ∈ names, v ∈ b.data.map Col.name) → getVars b names = .ok r → Reach r
  | squeeze {b r dim} : Reach b → squeeze b dim = .ok r → Reach r
  | reindex {oldNumpy b r dim sp weights force sum i n f} : Reach b → ReindexArgs oldNumpy b dim sp weights force sum i n f →
      reindex oldNumpy b dim sp weights force sum = .ok r → Reach r
  | roundtrip {b r} : Reach b → fromState (getstate b) = .ok r → Reach r

/-- C47. Whatever a program does, every bin where a variable is not finite is masked. Missing: bins may stay masked where every variable is finite
(`setitem_mask`, `getVars_mask`), see also `mask_exact_partial`. -/
theorem mask_sound_partial {b : BS A} (h : Reach b) : WF b ∧ MaskSound b := by
  induction h with
  | init h1 h2 h3 h4 =>
    obtain ⟨w1, w2⟩ := init_wf h1 h2 h3 h4
    exact ⟨w1, w2.sound⟩
  | @set b r key int vals _ h ih =>
    obtain ⟨w1, w2, w3, w4, w5⟩ := setitem_wf ih.1 h
    refine ⟨w1, fun o ho c hc v hv hf => ?_⟩
    rw [w2] at ho
    rw [w5 o ho]
    rw [w4] at hc
    rcases List.mem_append.mp hc with hc | hc
    · exact Or.inl (ih.2 o ho c (List.mem_of_mem_eraseP hc) v hv hf)
    · rw [List.mem_singleton.mp hc] at hv
      exact Or.inr ⟨v, hv, hf⟩
  | take _ ha h ih =>
    obtain ⟨r', idx, h1, h2, h3, -⟩ := take_partial _ ih.1 _ _ ha
    rw [h] at h1
    obtain rfl := Except.ok.inj h1
    exact ⟨h2, sel_sound h3 ih.2⟩
  | get _ ha h ih =>
    obtain ⟨h2, s, idx, g, h3, h4, h5, h6⟩ := getitem_wf ih.1 ha h
    refine ⟨h2, fun o ho c hc v hv hf => ?_⟩
    rw [h6]
    rw [h4] at ho
    rw [h5] at hc
    exact sel_sound h3 ih.2 o ho c hc v hv hf
  | vars _ hn h ih =>
    obtain ⟨data, h1, -, h3⟩ := getVars_eq _ ih.1 _ hn
    rw [h] at h1
    obtain rfl := Except.ok.inj h1
    obtain ⟨w1, w2⟩ := getVars_wf _ ih.1 data h3
    refine ⟨w1, fun o ho c hc v hv hf => ?_⟩
    rw [w2] at ho
    exact ih.2 o ho c (h3 c hc) v hv hf
  | squeeze _ h ih =>
    obtain ⟨w1, w2, w3, w4⟩ := squeeze_wf ih.1 h
    refine ⟨w1, fun o ho c hc v hv hf => ?_⟩
    rw [w4]; rw [w2] at ho; rw [w3] at hc
    exact ih.2 o ho c hc v hv hf
  | reindex _ ha h ih =>
    obtain ⟨w1, w2⟩ := reindex_wf ih.1 ha h
    exact ⟨w1, w2.sound⟩
  | @roundtrip b r _ h ih =>
    rw [roundtrip_eq _ ih.1] at h
    obtain rfl := Except.ok.inj h
    have w : WF ({ b with fts := [], mask := maskOf b.shape.prod b.data } : BS A) :=
      ⟨ih.1.nodup, ih.1.ledges, ih.1.lcoords, ih.1.bins, ih.1.size, by simp [maskOf, BS.shape]⟩
    exact ⟨w, ((maskExact_eq _ w).mpr rfl).sound⟩

/-- Programs that assign only new variables and do not drop any. -/
inductive ReachNew : BS A → Prop where
  | init {dims edges dshape data fts coords attrs b} : dims.Nodup → (∀ e ∈ edges, e ≠ []) → (∀ c ∈ data, c.vals.length = dshape.prod) →
      init dims edges dshape data fts coords attrs = .ok b → data ≠ [] → ReachNew b
  | set {b r key int vals} : ReachNew b → key ∉ b.data.map Col.name → setitem b key int vals = .ok r → ReachNew r
  | take {b r masks sels} : ReachNew b → TakeArgs b masks sels → take b masks sels = .ok r → ReachNew r
  | get {b r keys} : ReachNew b → GetArgs b keys → getitem b keys = .ok r → ReachNew r
  | squeeze {b r dim} : ReachNew b → squeeze b dim = .ok r → ReachNew r
  | reindex {oldNumpy b r dim sp weights force sum i n f} : ReachNew b → ReindexArgs oldNumpy b dim sp weights force sum i n f →
      reindex oldNumpy b dim sp weights force sum = .ok r → ReachNew r

/-- C47. The mask is exact as long as variables are not overwritten or dropped. -/
theorem mask_exact_partial {b : BS A} (h : ReachNew b) : WF b ∧ b.data ≠ [] ∧ MaskExact b := by
  induction h with
  | init h1 h2 h3 h4 h5 =>
    obtain ⟨w1, w2⟩ := init_wf h1 h2 h3 h4
    refine ⟨w1, ?_, w2⟩
    unfold Binned.init at h4
    split at h4
    · cases h4
    split at h4
    · cases h4
    dsimp only at h4
    split at h4
    · cases h4
    rw [← Except.ok.inj h4]; exact h5
  | @set b r key int vals _ hk h ih =>
    obtain ⟨w1, w2, w3, w4, w5⟩ := setitem_wf ih.1 h
    have he : b.data.eraseP (fun c => c.name = key) = b.data := by
      rw [List.eraseP_of_forall_not]
      intro c hc
      simp only [decide_eq_true_eq]
      intro e
      exact hk (List.mem_map.mpr ⟨c, hc, e⟩)
    rw [he] at w4
    refine ⟨w1, by rw [w4]; simp, fun o ho => ?_⟩
    rw [w2] at ho
    rw [w5 o ho, ih.2.2 o ho, w4]
    constructor
    · rintro (⟨c, hc, v, hv, hf⟩ | ⟨v, hv, hf⟩)
      · exact ⟨c, List.mem_append_left _ hc, v, hv, hf⟩
      · exact ⟨⟨key, int, vals⟩, by simp, v, hv, hf⟩
    · rintro ⟨c, hc, v, hv, hf⟩
      rcases List.mem_append.mp hc with hc | hc
      · exact Or.inl ⟨c, hc, v, hv, hf⟩
      · rw [List.mem_singleton.mp hc] at hv
        exact Or.inr ⟨v, hv, hf⟩
  | take _ ha h ih =>
    obtain ⟨r', idx, h1, h2, h3, -⟩ := take_partial _ ih.1 _ _ ha
    rw [h] at h1
    obtain rfl := Except.ok.inj h1
    exact ⟨h2, by rw [← List.length_pos_iff, h3.ndata, List.length_pos_iff]; exact ih.2.1, sel_exact h3 ih.2.2 ih.2.1⟩
  | get _ ha h ih =>
    obtain ⟨h2, s, idx, g, h3, h4, h5, h6⟩ := getitem_wf ih.1 ha h
    refine ⟨h2, by rw [h5, ← List.length_pos_iff, h3.ndata, List.length_pos_iff]; exact ih.2.1, fun o ho => ?_⟩
    rw [h6, h5]
    rw [h4] at ho
    exact sel_exact h3 ih.2.2 ih.2.1 o ho
  | squeeze _ h ih =>
    obtain ⟨w1, w2, w3, w4⟩ := squeeze_wf ih.1 h
    refine ⟨w1, by rw [w3]; exact ih.2.1, fun o ho => ?_⟩
    rw [w4, w3]; rw [w2] at ho
    exact ih.2.2 o ho
  | @reindex oldNumpy b r dim sp weights force sum i n f _ ha h ih =>
    obtain ⟨w1, w2⟩ := reindex_wf ih.1 ha h
    refine ⟨w1, ?_, w2⟩
    obtain ⟨w, hwt, -⟩ := ha.weights
    obtain ⟨r', e, h1, h2, h3, h4, h5, h6, h7, h8, h9, h10, h11, h12⟩ := reindex_eq oldNumpy b ih.1 dim sp weights force sum i n f ha w hwt
    rw [h] at h1
    rw [Except.ok.inj h1, ← List.length_pos_iff, h11, List.length_pos_iff]
    exact ih.2.1

/-- A statistic with an invalid bin. -/
def gap : BS Unit := ⟨["k"], [[0, 1, 2]], [[1/2, 3/2]], [⟨"power", false, [.nan, .fin 5]⟩, ⟨"k", false, [.fin 0, .fin 1]⟩], [true, false], (), []⟩

/-- The negation of C47: after `gap["power"] = [4, 5]` the first bin is still masked. -/
theorem setitem_mask : ∃ r, setitem gap "power" false [.fin 4, .fin 5] = .ok r ∧ r.mask = [true, false] ∧ ¬ MaskExact r := by
  refine ⟨⟨["k"], [[0, 1, 2]], [[1/2, 3/2]], [⟨"k", false, [.fin 0, .fin 1]⟩, ⟨"power", false, [.fin 4, .fin 5]⟩], [true, false], (), []⟩,
    by decide +kernel, rfl, ?_⟩
  intro h
  obtain ⟨c, hc, v, hv, hf⟩ := (h 0 (by decide)).mp rfl
  simp only [List.mem_cons, List.not_mem_nil, or_false] at hc
  rcases hc with rfl | rfl
  · simp at hv; rw [← hv] at hf; cases hf
  · simp at hv; rw [← hv] at hf; cases hf

/-- The negation of C47: `gap[["k"]]` has a masked bin although its only variable is finite. -/
theorem getVars_mask : ∃ r, getVars gap ["k"] = .ok r ∧ r.mask = [true, false] ∧ ¬ MaskExact r := by
  refine ⟨⟨["k"], [[0, 1, 2]], [[1/2, 3/2]], [⟨"k", false, [.fin 0, .fin 1]⟩], [true, false], (), []⟩, by decide +kernel, rfl, ?_⟩
  intro h
  obtain ⟨c, hc, v, hv, hf⟩ := (h 0 (by decide)).mp rfl
  simp only [List.mem_cons, List.not_mem_nil, or_false] at hc
  subst hc
  simp at hv; rw [← hv] at hf; cases hf

/-- `gap` is made by `init`, so the invariants hold for it and for the two results. -/
example : ReachNew gap ∧ Reach gap := by
  have h : init ["k"] [[0, 1, 2]] [2] [⟨"power", false, [.nan, .fin 5]⟩, ⟨"k", false, [.fin 0, .fin 1]⟩] [] none () = .ok gap := by decide +kernel
  refine ⟨.init (by decide) (by simp) ?_ h (by simp), .init (by decide) (by simp) ?_ h⟩ <;>
  · intro c hc
    simp only [List.mem_cons, List.not_mem_nil, or_false] at hc
    rcases hc with rfl | rfl <;> rfl

/-! ## Coordinates -/

theorem centers_get (e : List ℚ) (k : Nat) (lo hi : ℚ) (h1 : e[k]? = some lo) (h2 : e[k + 1]? = some hi) : (centers e)[k]? = some ((lo + hi) / 2) := by
  unfold centers
  rw [List.getElem?_zipWith, h1]
  rw [List.getElem?_tail, h2]

/-- C58. Every bin of a selection keeps its coordinate in the dimensions where the coordinates are the bin centers and the bins selected are consecutive.
Missing: other coordinates (`getVars_coords`) and gaps (`take_edges_wrong`). -/
theorem take_coords_partial (b : BS A) (hw : WF b) (masks : List (List Bool)) (sels : List (String × Sel)) (ha : TakeArgs b masks sels) :
    ∃ (r : BS A) (idx : List (List Nat)), take b masks sels = .ok r ∧ idx.length = b.dims.length ∧
      (∀ (ax : Nat) (l : List Nat), idx[ax]? = some l → l.Pairwise (· < ·) ∧ ∀ x, x ∈ l ↔ Kept b masks sels ax x) ∧
      ∀ (ax : Nat) (l : List Nat) (e c : List ℚ), idx[ax]? = some l → Consecutive l → b.edges[ax]? = some e → b.coords[ax]? = some c → c = centers e →
        ∃ c', r.coords[ax]? = some c' ∧ ∀ (k x : Nat), l[k]? = some x → c'[k]? = c[x]? := by
  obtain ⟨r, idx, h1, h2, h3, h4, h5, h6⟩ := take_partial b hw masks sels ha
  refine ⟨r, idx, h1, h4, h5, fun ax l e c hl hcons he hc hce => ?_⟩
  obtain ⟨e', h7, h8⟩ := h6 ax l e hl he hcons
  refine ⟨centers e', by rw [h3.coords, h7]; rfl, fun k x hk => ?_⟩
  obtain ⟨h9, h10⟩ := h8 k x hk
  have hx : x < c.length := by
    have := (((h5 ax l hl).2 x).mp (List.mem_of_getElem? hk)).1
    have hs : b.shape[ax]? = some c.length := by simp [BS.shape, hc]
    rw [List.getD_eq_getElem?_getD, hs] at this
    exact this
  have hel := hw.bins ax e c he hc
  have g1 : e[x]? = some (e[x]'(by omega)) := List.getElem?_eq_getElem (by omega)
  have g2 : e[x + 1]? = some (e[x + 1]'(by omega)) := List.getElem?_eq_getElem (by omega)
  rw [hce, centers_get e x _ _ g1 g2, centers_get e' k _ _ (h9.trans g1) (h10.trans g2)]

/-- The negation of C58: coordinates that are not the bin centers, like the wave numbers that `FFTPower` finds for `dk = 0`, are
replaced when variables are selected. -/
theorem getVars_coords :
    let b : BS Unit := ⟨["k"], [[0, 1, 2]], [[1/4, 1]], [⟨"power", false, [.fin 4, .fin 5]⟩], [false, false], (), []⟩
    ∃ r, getVars b ["power"] = .ok r ∧ r.data = b.data ∧ r.edges = b.edges ∧ r.coords = [[1/2, 3/2]] := by
  refine ⟨⟨["k"], [[0, 1, 2]], [[1/2, 3/2]], [⟨"power", false, [.fin 4, .fin 5]⟩], [false, false], (), []⟩, ?_, ?_, ?_, ?_⟩ <;> decide +kernel

/-- What is not finite. -/
theorem isFinite_false (v : Val) : v.isFinite = false ↔ v = .nan ∨ ∃ s, v = .inf s := by
  cases v <;> simp [Val.isFinite]

/-- A sum is NaN if a term is, or for two infinities of different sign; it is infinite with the sign of the infinite terms. -/
theorem add_nan (u v : Val) : (u.add v = .nan ↔ u = .nan ∨ v = .nan ∨ ∃ s, u = .inf s ∧ v = .inf !s) ∧
    ∀ s, u.add v = .inf s ↔ (u = .inf s ∧ v ≠ .nan ∧ v ≠ .inf !s) ∨ (v = .inf s ∧ u ≠ .nan ∧ u ≠ .inf !s) := by
  constructor
  · rcases u with q | a | _ <;> rcases v with r | b | _ <;> simp [Val.add]
    cases a <;> cases b <;> decide
  · intro s
    rcases u with q | a | _ <;> rcases v with r | b | _ <;> simp [Val.add]
    cases a <;> cases b <;> cases s <;> decide

/-- The negative of a value. -/
def negVal : Val → Val
  | .fin q => .fin (-q)
  | .inf s => .inf !s
  | .nan => .nan

/-- The sign of a product: it changes with that of a factor, and the product of two positive infinities is one. -/
theorem mul_sign (u v : Val) : (negVal u).mul v = negVal (u.mul v) ∧ u.mul (negVal v) = negVal (u.mul v) ∧ (Val.inf false).mul (.inf false) = .inf false := by
  have key : ∀ q : ℚ, q ≠ 0 → decide (0 < q) = !decide (q < 0) := by
    intro q hq
    rcases lt_or_gt_of_ne hq with h | h
    · simp [h, not_lt.mpr h.le]
    · simp [h, not_lt.mpr h.le]
  refine ⟨?_, ?_, rfl⟩
  · rcases u with q | a | _ <;> rcases v with r | b | _ <;> simp only [Val.mul, negVal]
    · rw [neg_mul]
    · by_cases hq : q = 0
      · simp [hq, negVal]
      · rw [if_neg hq, if_neg (by simpa using hq)]
        simp only [negVal, Left.neg_neg_iff, key q hq]
        cases b <;> simp
    · by_cases hr : r = 0
      · simp [hr, negVal]
      · rw [if_neg hr, if_neg hr]
        simp only [negVal]
        cases a <;> simp
    · cases a <;> cases b <;> rfl
  · rcases u with q | a | _ <;> rcases v with r | b | _ <;> simp only [Val.mul, negVal]
    · rw [mul_neg]
    · by_cases hq : q = 0
      · simp [hq, negVal]
      · rw [if_neg hq, if_neg hq]
        simp only [negVal]
        cases b <;> simp
    · by_cases hr : r = 0
      · simp [hr, negVal]
      · rw [if_neg hr, if_neg (by simpa using hr)]
        simp only [negVal, Left.neg_neg_iff, key r hr]
        cases a <;> simp
    · cases a <;> cases b <;> rfl

/-- Which keys drop an axis, which are lists. -/
theorem key_kinds (k : Key) : (k.isInt = true ↔ ∃ i, k = .int i) ∧ (k.isList = true ↔ ∃ l, k = .list l) := by
  cases k <;> simp [Key.isInt, Key.isList]

/-- `_get_index`: the first coordinate that is equal; an IndexError if there is none. -/
theorem getIndex_spec (coords : List ℚ) (v : ℚ) : (∀ i, getIndex coords v = .ok i → coords[i]? = some v ∧ ∀ j < i, coords[j]? ≠ some v) ∧
    (v ∈ coords → ∃ i, getIndex coords v = .ok i) ∧ (v ∉ coords → getIndex coords v = .error .indexError) := by
  unfold getIndex
  refine ⟨?_, ?_, ?_⟩
  · intro i h
    split at h
    · rename_i hl
      cases h
      refine ⟨by rw [List.getElem?_eq_getElem hl, List.getElem_idxOf hl], ?_⟩
      intro j hj hv
      obtain ⟨hjl, hjv⟩ := List.getElem?_eq_some_iff.mp hv
      exact absurd (beq_self_eq_true v) (by simpa [hjv] using List.not_of_lt_findIdx hj)
    · cases h
  · intro h
    rw [if_pos (List.idxOf_lt_length_iff.mpr h)]; exact ⟨_, rfl⟩
  · intro h
    rw [if_neg (fun hl => h (List.idxOf_lt_length_iff.mp hl))]

/-- The tolerance of `allclose`. -/
theorem allclose_range (a b : ℚ) (hb : 0 ≤ b) : allclose a b = true ↔ b - (b / 100000 + 1 / 100000000) ≤ a ∧ a ≤ b + (b / 100000 + 1 / 100000000) := by
  unfold allclose
  rw [decide_eq_true_eq, abs_of_nonneg hb, abs_le]
  constructor
  · rintro ⟨h1, h2⟩; constructor <;> linarith
  · rintro ⟨h1, h2⟩; constructor <;> linarith

end NBK.Binned
