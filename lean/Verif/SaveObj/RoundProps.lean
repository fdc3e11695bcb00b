import Verif.SaveObj.LoadProps
import Verif.Attrs.Props

/-!
# A catalog that is saved and loaded again is the same catalog (C139)
-/
set_option linter.unusedSimpArgs false
namespace NBK.SaveObj
open NBK.Attrs (Codec Dict Val Stored)
variable {V : Type}

/-- The columns asked for. -/
def asked (cat : Cat V) (a : Args) : List Name := a.columns.getD (cat.cols.map Prod.fst)

/-- Column `c` is written: it is asked for, and not one of the default columns. -/
def Written (cat : Cat V) (a : Args) (c : Name) (x : Col V) : Prop := c ∈ asked cat a ∧ cat.cols.lookup c = some x ∧ x.dflt = false

theorem chosen_ok (cat : Cat V) (a : Args) (hd : a.datasets = none) (h : ∀ c ∈ asked cat a, (cat.cols.lookup c).isSome) : ∃ l, chosen cat a = .ok l := by
  have : ∀ l : List Name, (∀ c ∈ l, (cat.cols.lookup c).isSome) → ∃ r, (l.mapM fun c => (cat.cols.lookup c).map fun x => (c, x)) = some r := by
    intro l
    induction l with
    | nil => intro _; exact ⟨[], rfl⟩
    | cons c l ih =>
      intro hl
      obtain ⟨r, hr⟩ := ih fun x hx => hl x (List.mem_cons_of_mem _ hx)
      obtain ⟨x, hx⟩ := Option.isSome_iff_exists.mp (hl c List.mem_cons_self)
      exact ⟨(c, x) :: r, by rw [List.mapM_cons, hx, hr]; rfl⟩
  obtain ⟨r, hr⟩ := this _ h
  unfold asked at hr
  unfold chosen
  rw [hr, hd]
  exact ⟨_, rfl⟩

theorem chosen_spec (cat : Cat V) (a : Args) (hd : a.datasets = none) (l : List (Name × Col V)) (h : chosen cat a = .ok l) :
    (∀ p, p ∈ l ↔ ∃ c x, Written cat a c x ∧ p = (a.dataset ++ c, x)) ∧ ((asked cat a).Nodup → (names l).Nodup) := by
  unfold chosen at h
  cases hm : (a.columns.getD (cat.cols.map Prod.fst)).mapM fun c => (cat.cols.lookup c).map fun x => (c, x) with
  | none => rw [hm] at h; cases h
  | some r =>
    rw [hm, hd] at h
    simp only [Except.ok.injEq] at h
    subst h
    rw [mapM_some] at hm
    have hr : ∀ q : Name × Col V, q ∈ r ↔ q.1 ∈ asked cat a ∧ cat.cols.lookup q.1 = some q.2 := by
      intro q
      have : q ∈ r ↔ some q ∈ r.map some := by simp
      rw [this, ← hm, List.mem_map]
      constructor
      · rintro ⟨c, hc, he⟩
        obtain ⟨x, hx, rfl⟩ := Option.map_eq_some_iff.mp he
        exact ⟨hc, hx⟩
      · rintro ⟨h1, h2⟩
        exact ⟨q.1, h1, by rw [h2]; rfl⟩
    refine ⟨fun p => ?_, fun hn => ?_⟩
    · rw [List.mem_map]
      constructor
      · rintro ⟨q, hq, rfl⟩
        rw [List.mem_filter, hr] at hq
        exact ⟨q.1, q.2, ⟨hq.1.1, hq.1.2, by simpa using hq.2⟩, rfl⟩
      · rintro ⟨c, x, ⟨h1, h2, h3⟩, rfl⟩
        exact ⟨(c, x), by rw [List.mem_filter, hr]; exact ⟨⟨h1, h2⟩, by simp [h3]⟩, rfl⟩
    · have hk : r.map Prod.fst = asked cat a := by
        have := congrArg (List.map fun o : Option (Name × Col V) => (o.map Prod.fst).getD []) hm
        rw [List.map_map, List.map_map] at this
        have e1 : (r.map ((fun o : Option (Name × Col V) => (o.map Prod.fst).getD []) ∘ some)) = r.map Prod.fst := by
          apply List.map_congr_left; intro q _; rfl
        rw [e1] at this
        rw [← this]
        refine (List.map_congr_left (g := id) ?_).trans (List.map_id _)
        intro c hc
        have hs : ∃ q ∈ r, (cat.cols.lookup c).map (fun x => (c, x)) = some q := by
          have : (cat.cols.lookup c).map (fun x => (c, x)) ∈ r.map some := by
            rw [← hm]
            exact List.mem_map.mpr ⟨c, hc, rfl⟩
          obtain ⟨q, h1, h2⟩ := List.mem_map.mp this
          exact ⟨q, h1, h2.symm⟩
        obtain ⟨q, _, hq⟩ := hs
        obtain ⟨x, hx, rfl⟩ := Option.map_eq_some_iff.mp hq
        simp [hx]
      unfold names
      rw [List.map_map]
      have : (r.filter fun p => !p.2.dflt).map (Prod.fst ∘ fun p => (a.dataset ++ p.1, p.2)) = ((r.filter fun p => !p.2.dflt).map Prod.fst).map (a.dataset ++ ·) := by
        rw [List.map_map]; rfl
      rw [this]
      refine List.Nodup.map (fun x y h => List.append_cancel_left h) ?_
      have : ((r.filter fun p => !p.2.dflt).map Prod.fst).Sublist (r.map Prod.fst) := List.Sublist.map _ List.filter_sublist
      rw [hk] at this
      exact this.nodup hn

theorem mem_of_lookup {β : Type} (f : List (Name × β)) (n : Name) (x : β) (h : f.lookup n = some x) : (n, x) ∈ f := by
  induction f with
  | nil => cases h
  | cons q qs ih =>
    obtain ⟨u, w⟩ := q
    rw [List.lookup_cons] at h
    by_cases hu : n = u
    · subst hu
      simp only [BEq.rfl] at h
      injection h with h
      subst h
      exact List.mem_cons_self
    · have hb : (n == u) = false := by simpa using hu
      rw [hb] at h
      exact List.mem_cons_of_mem _ (ih h)

theorem total_sized (cat : Cat V) (e : Expr V) (h : ∀ r, e.len r = cat.sizes.getD r 0) : total cat.sizes.length e = cat.sizes.sum := by
  unfold total
  congr 1
  apply List.ext_getElem
  · simp
  · intro i h1 h2
    simp [h, h2]

theorem storeAll_saveCat (c : Codec) (old st : Dict Stored) (attrs : Dict Val) (h : Attrs.saveCat c old attrs = .ok st) : storeAll c old attrs = (st, true) := by
  induction attrs generalizing old with
  | nil =>
    simp only [Attrs.saveCat, List.foldlM_nil, pure, Except.pure, Except.ok.injEq] at h
    rw [← h]; rfl
  | cons p l ih =>
    unfold Attrs.saveCat at h ih
    rw [List.foldlM_cons] at h
    unfold storeAll
    cases hs : Attrs.storeCat c p.2 with
    | error e => rw [hs] at h; cases h
    | ok s =>
      rw [hs] at h
      exact ih _ h

theorem lookup_map_snd {β γ : Type} (L : List (Name × β)) (hL : (L.map Prod.fst).Nodup) (g : β → γ) (n : Name) (f : β) (h : (n, f) ∈ L) : (L.map fun p => (p.1, g p.2)).lookup n = some (g f) := by
  induction L with
  | nil => cases h
  | cons p L ih =>
    have hp := List.nodup_cons.mp (show (p.1 :: L.map Prod.fst).Nodup from hL)
    rw [List.map_cons, List.lookup_cons]
    rcases List.mem_cons.mp h with rfl | h
    · simp
    · have hne : n ≠ p.1 := fun e => hp.1 (List.mem_map.mpr ⟨_, h, e⟩)
      have hb : (n == p.1) = false := by simpa using hne
      simp only [hb]
      exact ih hp.2 h

theorem mem_offset (g : Nat → V) (sizes : List Nat) (r : Nat) (h : r ≤ sizes.length) :
    offset (.mem ((List.range sizes.length).map fun r => (List.range (sizes.getD r 0)).map fun i => g ((sizes.take r).sum + i))) r = (sizes.take r).sum := by
  induction r with
  | zero => simp [offset]
  | succ r ih =>
    rw [offset_succ, ih (by omega), List.take_add_one, List.sum_append]
    congr 1
    have hr : r < sizes.length := by omega
    simp [Expr.len, hr]

/-- The rows of a default column. -/
theorem default_rows (fs : FS V) (D : Defaults V) (hD : (D.map Prod.fst).Nodup) (sizes : List Nat) (cols : List (Name × Col V)) (attrs : Dict Val) (n : Name) (f : Nat → V)
    (hn : cols.lookup n = none) (hf : (n, f) ∈ D) : rows fs ⟨sizes, withDefaults D sizes cols, attrs⟩ n = some ((List.range sizes.sum).map f) := by
  let g : (Nat → V) → Col V := fun f => ⟨.mem ((List.range sizes.length).map fun r => (List.range (sizes.getD r 0)).map fun i => f ((sizes.take r).sum + i)), true, []⟩
  have hl : (withDefaults D sizes cols).lookup n = some (g f) := by
    unfold withDefaults
    rw [List.lookup_append, hn, Option.none_or]
    refine lookup_map_snd _ ?_ g n f (List.mem_filter.mpr ⟨hf, by simp [hn]⟩)
    exact (List.Sublist.map Prod.fst (List.filter_sublist (p := fun p => (cols.lookup p.1).isNone) (l := D))).nodup hD
  unfold rows
  simp only [hl, Option.bind_some]
  have hlen : ∀ r, r < sizes.length → (g f).expr.len r = sizes.getD r 0 := by
    intro r hr
    simp [g, Expr.len, hr]
  have htot : total sizes.length (g f).expr = sizes.sum := by
    rw [total_eq, mem_offset f sizes _ (Nat.le_refl _), List.take_length]
  refine values_of fs _ _ _ (by rw [htot]; simp) fun r i hr hi => ?_
  have hlt := row_lt _ _ r i hr hi
  rw [htot] at hlt
  rw [mem_offset f sizes r (by omega)] at hlt ⊢
  rw [hlen r hr] at hi
  simp only [g, Expr.row]
  rw [List.getElem?_map, List.getElem?_range hlt]
  rw [List.getD_eq_getElem?_getD, List.getElem?_eq_getElem hr, Option.getD_some] at hi
  simp [hr, hi]

/-- The names which columns must not have: blocks of these names are taken for headers. -/
def reserved : List String := ["Header", "header", "."]

/-- **Saved and loaded** (C139): a catalog saved to a new file is loaded, on any number of ranks, as a catalog with the same columns (but for default columns), the same rows in the same
order, and the same attributes up to their shape (C91), whatever the order in which chunks were written. -/
theorem round_trip_partial (c : Codec) (zero : V) (fs : FS V) (hok : fs.Ok) (cat : Cat V) (hz : cat.Sized) (path : String) (hnew : fs path = none) (a : Args)
    (hd : a.datasets = none) (hh : a.header = some ["Header"]) (hds : a.dataset ≠ ["Header"]) (hask : ∀ x ∈ asked cat a, (cat.cols.lookup x).isSome) (hnd : (asked cat a).Nodup)
    (hplain : ∀ n ∈ asked cat a, ∃ s, n = [s] ∧ s ∉ reserved) (hex : ∃ n x, Written cat a n x)
    (hread : ∀ n x, Written cat a n x → Readable fs cat.sizes.length x.expr ∧ ∀ y ∈ x.expr.reads, y.1 ≠ path)
    (hg : ∀ p ∈ cat.attrs, Attrs.Good c p.2) (hka : (Attrs.keys cat.attrs).Nodup)
    (order : List (Name × Col V) → List ((Name × Col V) × Chunk)) (ho : ∀ l, chosen cat a = .ok l → Covers cat.sizes.length l (order l)) :
    ∃ fs', save c zero fs cat path a order = (fs', none) ∧ ∀ (D : Defaults V) (P : Nat) (user : Dict Val), 0 < P → (Attrs.keys user).Nodup →
      ∃ cat', load c D P fs' path { dataset := a.dataset, attrs := user } = .ok cat' ∧ cat'.sizes = sizesOf cat.sizes.sum P ∧
        (∀ n x, Written cat a n x → rows fs' cat' n = rows fs cat n ∧ (rows fs cat n).isSome) ∧
        (∀ n y, cat'.cols.lookup n = some y → y.dflt = false → ∃ x, Written cat a n x) ∧
        (∀ n g, (D.map Prod.fst).Nodup → (n, g) ∈ D → (∀ x, ¬ Written cat a n x) → rows fs' cat' n = some ((List.range cat.sizes.sum).map g)) ∧
        ∀ k, cat'.attrs.lookup k = (user.lookup k).or ((cat.attrs.lookup k).map Attrs.flat) := by
  obtain ⟨l, hl⟩ := chosen_ok cat a hd hask
  obtain ⟨hm, hnn⟩ := chosen_spec cat a hd l hl
  have hn := hnn hnd
  have hstore : Storable c cat a := Or.inr fun p hp => by
    obtain ⟨s, h, _⟩ := Attrs.store_read c p.2 (hg p hp)
    exact ⟨s, h⟩
  have hapart : Apart path l := by
    intro p hp x hx h
    obtain ⟨n, y, hw, rfl⟩ := (hm p).mp hp
    exact (hread n y hw).2 x hx h.1
  have hvals : ∀ p ∈ l, ∃ vs, values fs cat.sizes.length p.2.expr = some vs := by
    intro p hp
    obtain ⟨n, y, hw, rfl⟩ := (hm p).mp hp
    exact (readable_iff _ _ _).mp (hread n y hw).1
  let vs : Name × Col V → List V := fun p => (values fs cat.sizes.length p.2.expr).getD []
  have hv : ∀ p ∈ l, values fs cat.sizes.length p.2.expr = some (vs p) := by
    intro p hp
    obtain ⟨u, hu⟩ := hvals p hp
    simp only [vs, hu, Option.getD_some]
  obtain ⟨fs', s1, s2, s3, s4, _⟩ := save_partial c zero fs cat path a order l hl hn hstore hapart (ho l hl) vs hv
  refine ⟨fs', s1, fun D P user hP hku => ?_⟩
  have hok' : fs'.Ok := by
    have := save_ok c zero fs hok cat path a order
    rw [s1] at this
    exact this
  have hblk : ∀ m, fs.block path m = none := fun m => by unfold FS.block; rw [hnew]; rfl
  -- names of the blocks
  have hhead : (["Header"] : Name) ∉ names l := by
    intro hx
    obtain ⟨p, hp, he⟩ := List.mem_map.mp hx
    obtain ⟨n, y, hw, rfl⟩ := (hm p).mp hp
    obtain ⟨s, rfl, hs⟩ := hplain n hw.1
    simp only at he
    cases hds0 : a.dataset with
    | nil =>
      rw [hds0] at he
      simp only [List.nil_append, List.cons.injEq, and_true] at he
      subst he
      simp [reserved] at hs
    | cons d ds =>
      rw [hds0] at he
      have := congrArg List.length he
      simp at this
  have hheader := s4 _ hh hhead
  rw [hblk] at hheader
  simp only [Option.map_none, Option.getD_none] at hheader
  have hfile : ∃ f, fs' path = some f := by
    cases hf : fs' path with
    | none =>
      unfold FS.block at hheader
      rw [hf] at hheader
      cases hheader
    | some f => exact ⟨f, rfl⟩
  obtain ⟨f, hf⟩ := hfile
  have hlook : ∀ m, f.lookup m = fs'.block path m := fun m => by unfold FS.block; rw [hf]; rfl
  have hblock : ∀ m, (fs'.block path m).isSome → m = ["Header"] ∨ ∃ n x, Written cat a n x ∧ m = a.dataset ++ n := by
    intro m hs
    by_cases h1 : m ∈ names l
    · obtain ⟨p, hp, rfl⟩ := List.mem_map.mp h1
      obtain ⟨n, y, hw, rfl⟩ := (hm p).mp hp
      exact Or.inr ⟨n, y, hw, rfl⟩
    · by_cases h2 : a.header = some m
      · rw [hh] at h2
        injection h2 with h2
        exact Or.inl h2.symm
      · rw [s3 path m (fun x => by rcases x.2 with x | x; exacts [h1 x, h2 x]), hblk] at hs
        cases hs
  -- the headers
  have hnone : ∀ s ∈ (["header", "."] : List String), fs'.block path [s] = none := by
    intro s hs
    by_contra hc
    rcases hblock [s] (Option.isSome_iff_ne_none.mpr hc) with h | ⟨n, x, hw, h⟩
    · simp only [List.cons.injEq, and_true] at h
      subst h
      simp at hs
    · obtain ⟨t, rfl, ht⟩ := hplain n hw.1
      cases hds0 : a.dataset with
      | nil =>
        rw [hds0] at h
        simp only [List.nil_append, List.cons.injEq, and_true] at h
        subst h
        simp only [reserved, List.mem_cons, List.not_mem_nil, or_false, not_or] at ht hs
        rcases hs with h | h
        · exact ht.2.1 h
        · exact ht.2.2 h
      | cons d ds =>
        rw [hds0] at h
        have := congrArg List.length h
        simp at this
  have hdot : fs'.block path (a.dataset ++ ["."]) = none := by
    by_contra hc
    rcases hblock _ (Option.isSome_iff_ne_none.mpr hc) with h | ⟨n, x, hw, h⟩
    · cases hds0 : a.dataset with
      | nil => rw [hds0] at h; simp at h
      | cons d ds =>
        rw [hds0] at h
        have := congrArg List.length h
        simp at this
    · obtain ⟨t, rfl, ht⟩ := hplain n hw.1
      have := List.append_cancel_left h
      simp only [List.cons.injEq, and_true] at this
      subst this
      simp [reserved] at ht
  let la : LoadArgs := { dataset := a.dataset, attrs := user }
  have hhs : headers f la = [["Header"], a.dataset ++ ["."]] := by
    unfold headers
    simp only [la, Option.getD_none, List.foldl_cons, List.foldl_nil, hlook, hheader, hnone "header" (by simp), hnone "." (by simp), Option.isSome_some, Option.isSome_none, if_true,
      List.not_mem_nil, if_false, List.nil_append, Bool.false_eq_true]
    rfl
  -- attributes
  obtain ⟨st, m, t1, t2, t3⟩ := Attrs.catalog_partial c cat.attrs user hka hku hg ["Header"] (by simp) ""
  have hst := storeAll_saveCat c [] st cat.attrs t1
  have hrd : ∃ d, readAttrs c f (headers f la) = .ok d ∧ m = Attrs.update (Attrs.update [] d) user := by
    rw [hhs]
    unfold readAttrs
    simp only [List.foldlM_cons, List.foldlM_nil, hlook, hheader, hdot, hst, Option.map_some, Option.map_none, Option.getD_some, Option.getD_none]
    have hfh : Attrs.findHeaders none ["Header"] "" = ["Header", "/."] := by decide
    rw [hfh] at t2
    unfold Attrs.loadCat Attrs.loadFile at t2
    simp only [List.foldlM_cons, List.foldlM_nil, if_true, if_neg (show ¬ ("/." : String) = "Header" by decide)] at t2
    cases hr : Attrs.readInto (Attrs.readFile c) [] st with
    | error e => rw [hr] at t2; cases t2
    | ok d =>
      rw [hr] at t2
      refine ⟨d, rfl, ?_⟩
      simp only [bind, Except.bind, Attrs.readInto, List.foldlM_nil, pure, Except.pure, Except.ok.injEq] at t2
      exact t2.symm
  obtain ⟨d, hd1, hd2⟩ := hrd
  -- the columns
  have hshow : ∀ n b, Shows fs' path la n b ↔ ∃ x, Written cat a n x ∧ b = ⟨(vs (a.dataset ++ n, x)).length, vs (a.dataset ++ n, x), attrsAfter c cat.attrs a.header (a.dataset ++ n, x)⟩ := by
    intro n b
    have hexc : excluded fs' path la = [["Header"], a.dataset ++ ["."]] := by
      unfold excluded
      rw [hf]
      exact hhs
    unfold Shows
    rw [hexc]
    constructor
    · rintro ⟨h1, h2⟩
      rcases hblock (a.dataset ++ n) (by rw [show fs'.block path (a.dataset ++ n) = some b from h1]; rfl) with h | ⟨n', x, hw, h⟩
      · exfalso
        cases hds0 : a.dataset with
        | nil =>
          rw [hds0, List.nil_append] at h
          exact h2 (by rw [h]; simp)
        | cons e es =>
          rw [hds0] at h
          simp only [List.cons_append, List.cons.injEq, List.append_eq_nil_iff] at h
          exact hds (by rw [hds0, h.1, h.2.1])
      · have := List.append_cancel_left h
        subst this
        refine ⟨x, hw, ?_⟩
        have h3 := s2 (a.dataset ++ n, x) ((hm _).mpr ⟨n, x, hw, rfl⟩)
        have h1' : fs'.block path (a.dataset ++ n) = some b := h1
        simp only at h3
        rw [h1'] at h3
        injection h3
    · rintro ⟨x, hw, rfl⟩
      refine ⟨s2 (a.dataset ++ n, x) ((hm _).mpr ⟨n, x, hw, rfl⟩), ?_⟩
      obtain ⟨t, rfl, ht⟩ := hplain n hw.1
      simp only [List.mem_cons, List.not_mem_nil, or_false, not_or]
      constructor
      · intro h
        simp only [List.cons.injEq, and_true] at h
        subst h
        simp [reserved] at ht
      · intro h
        cases hds0 : a.dataset with
        | nil =>
          rw [hds0] at h
          simp only [List.nil_append, List.cons.injEq, and_true] at h
          subst h
          simp [reserved] at ht
        | cons e es =>
          rw [hds0] at h
          have := congrArg List.length h
          simp at this
  have hlen : ∀ n x, Written cat a n x → (vs (a.dataset ++ n, x)).length = cat.sizes.sum := by
    intro n x hw
    have h1 := (values_spec fs cat.sizes.length x.expr _ (hv (a.dataset ++ n, x) ((hm _).mpr ⟨n, x, hw, rfl⟩))).1
    rw [h1]
    have hmem := mem_of_lookup cat.cols n x hw.2.1
    exact total_sized cat x.expr (hz (n, x) hmem)
  have hsz : ∀ n b, Shows fs' path la n b → b.size = cat.sizes.sum := by
    intro n b hb
    obtain ⟨x, hw, rfl⟩ := (hshow n b).mp hb
    exact hlen n x hw
  have hsome : ∃ n b, Shows fs' path la n b := by
    obtain ⟨n, x, hw⟩ := hex
    exact ⟨n, _, (hshow n _).mpr ⟨x, hw, rfl⟩⟩
  obtain ⟨q, g1, g2, g3⟩ := load_spec c D P fs' hok' path f hf la cat.sizes.sum hsz hsome d hd1
  refine ⟨_, g1, rfl, fun n x hw => ?_, fun n y hy hdf => ?_, fun n g hD hg hw => ?_, fun k => ?_⟩
  · have hr0 : rows fs cat n = some (vs (a.dataset ++ n, x)) := by
      unfold rows
      rw [hw.2.1]
      exact hv (a.dataset ++ n, x) ((hm _).mpr ⟨n, x, hw, rfl⟩)
    rw [hr0]
    exact ⟨loaded_rows c D P hP fs' hok' path f hf la cat.sizes.sum hsz hsome d hd1 _ g1 n _ ((hshow n _).mpr ⟨x, hw, rfl⟩) rfl, rfl⟩
  · simp only [withDefaults] at hy
    rw [List.lookup_append] at hy
    cases hq : (fileCols path la P cat.sizes.sum q).lookup n with
    | none =>
      rw [hq] at hy
      simp only [Option.none_or] at hy
      exfalso
      have : ∀ (L : Defaults V) (g : Name × (Nat → V) → Expr V), (L.map fun p => (p.1, (⟨g p, true, []⟩ : Col V))).lookup n = some y → y.dflt = true := by
        intro L g
        induction L with
        | nil => intro h; cases h
        | cons p L ih =>
          intro h
          rw [List.map_cons, List.lookup_cons] at h
          by_cases e : n = p.1
          · rw [e, BEq.rfl] at h
            injection h with h
            rw [← h]
          · have hb : (n == p.1) = false := by simpa using e
            rw [hb] at h
            exact ih h
      have := this _ _ hy
      rw [hdf] at this
      cases this
    | some z =>
      rw [fileCols_lookup] at hq
      obtain ⟨b, hb, _⟩ := Option.map_eq_some_iff.mp hq
      obtain ⟨x, hw, _⟩ := (hshow n b).mp ((g3 n b).mp ((lookup_mem q g2 n b).mp hb))
      exact ⟨x, hw⟩
  · have hsum : (sizesOf cat.sizes.sum P).sum = cat.sizes.sum := by
      have h1 := disk_total (V := V) path [] cat.sizes.sum P hP
      have h2 : total P (diskExpr path [] cat.sizes.sum P : Expr V) = (sizesOf cat.sizes.sum P).sum := by
        unfold total sizesOf
        congr 1
        apply List.map_congr_left
        intro r hr
        exact disk_len _ _ _ _ _ (List.mem_range.mp hr)
      rw [← h2, h1]
    have hrow := default_rows fs' D hD (sizesOf cat.sizes.sum P) (fileCols path la P cat.sizes.sum q) (Attrs.update (Attrs.update [] d) la.attrs) n g (by
      rw [fileCols_lookup, Option.map_eq_none_iff]
      by_contra hc
      obtain ⟨b, hb⟩ := Option.ne_none_iff_exists'.mp hc
      obtain ⟨x, hx, _⟩ := (hshow n b).mp ((g3 n b).mp ((lookup_mem q g2 n b).mp hb))
      exact hw x hx) hg
    rw [hsum] at hrow
    exact hrow
  · rw [← t3 k, hd2]

end NBK.SaveObj
