import Verif.Binned.TakeLemmas

/-!
# Selecting bins (C44)
-/
set_option linter.unusedSimpArgs false
namespace NBK.Binned
open NBK.PySlice
variable {A : Type}

/-- The index in the source of the element `js` of a selection. -/
def srcIdx (idx : List (List Nat)) (js : List Nat) : List Nat := (List.range js.length).map fun i => (idx.getD i []).getD (js.getD i 0) 0

/-- The bins `l` of a dimension with edges `e` have their own lower and upper edges in `e'`. -/
def OwnEdges (e e' : List ℚ) (l : List Nat) : Prop :=
  ∀ (k x : Nat), l[k]? = some x → e'[k]? = e[x]? ∧ e'[k + 1]? = e[x + 1]?

/-- Each of the bins follows the one before it. -/
def Consecutive (l : List Nat) : Prop := ∀ (k x y : Nat), l[k]? = some x → l[k + 1]? = some y → y = x + 1

/-- The lower edges of all bins and the upper edge of the last one are right. -/
def LowerEdges (e e' : List ℚ) (l : List Nat) : Prop :=
  (∀ (k x : Nat), l[k]? = some x → e'[k]? = e[x]?) ∧ ∀ x : Nat, l.getLast? = some x → e'[l.length]? = e[x + 1]?

theorem LowerEdges.own {e e' : List ℚ} {l : List Nat} (h : LowerEdges e e' l) (hc : Consecutive l) : OwnEdges e e' l := by
  intro k x hk
  refine ⟨h.1 k x hk, ?_⟩
  obtain ⟨hkl, -⟩ := List.getElem?_eq_some_iff.mp hk
  by_cases hk1 : k + 1 < l.length
  · rw [h.1 (k + 1) _ (List.getElem?_eq_getElem hk1), hc k x _ hk (List.getElem?_eq_getElem hk1)]
  · have : l.length = k + 1 := by omega
    rw [← this]
    apply h.2
    rw [List.getLast?_eq_getElem?, this]
    exact hk

theorem LowerEdges.own_iff {e e' : List ℚ} {l : List Nat} (h : LowerEdges e e' l) (he : e.Pairwise (· < ·)) (hl : ∀ x ∈ l, x + 1 < e.length) :
    OwnEdges e e' l ↔ Consecutive l := by
  refine ⟨fun ho k x y hx hy => ?_, h.own⟩
  have h1 := (ho k x hx).2
  rw [h.1 (k + 1) y hy] at h1
  have hx1 := hl x (List.mem_of_getElem? hx)
  have hy1 := hl y (List.mem_of_getElem? hy)
  rw [List.getElem?_eq_getElem (by omega), List.getElem?_eq_getElem (by omega), Option.some_inj] at h1
  have hnd : e.Nodup := he.imp ne_of_lt
  exact (List.Nodup.getElem_inj_iff hnd).mp h1

/-- A selection of the bins `idx` of each dimension: names, shape, data, mask, and the lower edges in the dimensions `good`. -/
structure IsSelection (b r : BS A) (idx : List (List Nat)) (good : Nat → Prop) : Prop where
  dims : r.dims = b.dims
  attrs : r.attrs = b.attrs
  fts : r.fts = b.fts
  shape : r.shape = idx.map List.length
  ndata : r.data.length = b.data.length
  data : ∀ (k : Nat) (c : Col), b.data[k]? = some c → ∃ c', r.data[k]? = some c' ∧ c'.name = c.name ∧ c'.int = c.int ∧
    ∀ js, Valid r.shape js → Valid b.shape (srcIdx idx js) ∧ ∃ v, c.vals[flat b.shape (srcIdx idx js)]? = some v ∧ c'.vals[flat r.shape js]? = some v
  mask : ∀ js, Valid r.shape js → ∃ v, b.mask[flat b.shape (srcIdx idx js)]? = some v ∧ r.mask[flat r.shape js]? = some v
  edges : ∀ (ax : Nat) (l : List Nat) (e : List ℚ), good ax → idx[ax]? = some l → b.edges[ax]? = some e → ∃ e', r.edges[ax]? = some e' ∧
    e'.length = l.length + 1 ∧ LowerEdges e e' l
  coords : ∀ (ax : Nat), r.coords[ax]? = (r.edges[ax]?).map centers

theorem sliceEdges_exists (e : List ℚ) (n : Nat) (he : e.length = n + 1) (idx : List Int) (hb : ∀ z ∈ idx, -(n : Int) ≤ z ∧ z < n) :
    ∃ r, sliceEdges e idx = .ok r := by
  apply mapM_exists
  intro z hz
  have : -((e.length : Nat) : Int) ≤ z ∧ z < (e.length : Nat) := by
    unfold edgeIdx at hz
    split at hz
    · rename_i l hl
      rcases List.mem_append.mp hz with h | h
      · have := hb z h; omega
      · have := hb l (List.mem_of_getLast? hl)
        simp at h; omega
    · simp at hz; omega
  obtain ⟨k, hk, -⟩ := wrap_ok _ _ this
  exact ⟨_, by rw [hk]⟩

theorem finalize_sel (b : BS A) (hw : WF b) (idx : List (List Nat)) (hl : idx.length = b.dims.length) (indices : List (List Int))
    (hil : indices.length = b.dims.length) (hb : ∀ i < b.shape.length, ∀ x ∈ idx.getD i [], x < b.shape.getD i 0)
    (hlen : indices.map List.length = idx.map List.length)
    (hbi : ∀ i < b.shape.length, ∀ z ∈ indices.getD i [], -((b.shape.getD i 0 : Nat) : Int) ≤ z ∧ z < (b.shape.getD i 0 : Nat)) :
    ∃ r, finalize b (b.data.map fun c => { c with vals := takeAll .nan b.shape idx c.vals }) (takeAll false b.shape idx b.mask)
      indices = .ok r ∧ WF r ∧ IsSelection b r idx (fun ax => indices.getD ax [] = (idx.getD ax []).map Int.ofNat) := by
  have hsl : b.shape.length = b.dims.length := by rw [shape_length, hw.lcoords]
  have hel := hw.ledges
  have hbin : ∀ (i : Nat) (hi : i < b.dims.length), (b.edges[i]'(by omega)).length = b.shape.getD i 0 + 1 := by
    intro i hi
    have := hw.bins i _ (b.coords[i]'(by have := hw.lcoords; omega)) (List.getElem?_eq_getElem (by omega)) (List.getElem?_eq_getElem _)
    rw [this, List.getD_eq_getElem _ _ (by omega)]
    simp [BS.shape]
  have hlen' : ∀ (i : Nat) (hi : i < b.dims.length), (indices[i]'(by omega)).length = (idx[i]'(by omega)).length := by
    intro i hi
    have : (indices.map List.length)[i]'(by simp; omega) = (idx.map List.length)[i]'(by simp; omega) := by simp only [hlen]
    simpa using this
  have hs : ∀ (i : Nat) (hi : i < b.dims.length), ∃ r, sliceEdges (b.edges[i]'(by omega)) (indices[i]'(by omega)) = .ok r ∧
      r.length = (idx[i]'(by omega)).length + 1 ∧
      (indices[i]'(by omega) = (idx[i]'(by omega)).map Int.ofNat → LowerEdges (b.edges[i]'(by omega)) r (idx[i]'(by omega))) := by
    intro i hi
    obtain ⟨r, hr⟩ := sliceEdges_exists (b.edges[i]'(by omega)) _ (hbin i hi) (indices[i]'(by omega)) (by
      intro z hz
      exact hbi i (by omega) z (by rw [List.getD_eq_getElem _ _ (by omega)]; exact hz))
    refine ⟨r, hr, by rw [sliceEdges_length _ _ _ hr, hlen' i hi], fun he => ?_⟩
    obtain ⟨r', h1, h2, h3, h4⟩ := sliceEdges_nat (b.edges[i]'(by omega)) _ (hbin i hi) (idx[i]'(by omega)) (by
      intro x hx
      exact hb i (by omega) x (by rw [List.getD_eq_getElem _ _ (by omega)]; exact hx))
    rw [← he, hr] at h1
    rw [Except.ok.inj h1]
    exact ⟨h3, h4⟩
  obtain ⟨es, hes⟩ := mapM_exists (fun p : List ℚ × List Int => sliceEdges p.1 p.2) (b.edges.zip indices) (by
    intro p hp
    obtain ⟨i, hi, rfl⟩ := List.mem_iff_getElem.mp hp
    simp at hi
    obtain ⟨r, h1, -⟩ := hs i (by omega)
    exact ⟨r, by simpa using h1⟩)
  have hf := (mapM_ok _ _ _).mp hes
  have hesl : es.length = b.dims.length := by have := hf.length_eq; simp at this; omega
  have hget : ∀ (i : Nat) (hi : i < b.dims.length), (es[i]'(by omega)).length = (idx[i]'(by omega)).length + 1 ∧
      (indices[i]'(by omega) = (idx[i]'(by omega)).map Int.ofNat → LowerEdges (b.edges[i]'(by omega)) (es[i]'(by omega)) (idx[i]'(by omega))) := by
    intro i hi
    have h1 := (List.forall₂_iff_get.mp hf).2 i (by simp; omega) (by omega)
    simp only [List.get_eq_getElem, List.getElem_zip, List.getElem_map] at h1
    obtain ⟨r, h2, h3⟩ := hs i hi
    rw [h1] at h2
    rw [Except.ok.inj h2]; exact h3
  have hshape : (es.map centers).map List.length = idx.map List.length := by
    apply List.ext_getElem
    · simp; omega
    · intro i g1 g2
      simp only [List.length_map] at g1 g2
      simp only [List.getElem_map, centers_length]
      have := (hget i (by omega)).1
      omega
  obtain ⟨r, hr⟩ : ∃ r : BS A, r = ⟨b.dims, es, es.map centers, b.data.map fun c => { c with vals := takeAll .nan b.shape idx c.vals },
    takeAll false b.shape idx b.mask, b.attrs, b.fts⟩ := ⟨_, rfl⟩
  have rdims : r.dims = b.dims := by rw [hr]
  have redges : r.edges = es := by rw [hr]
  have rcoords : r.coords = es.map centers := by rw [hr]
  have rdata : r.data = b.data.map fun c => { c with vals := takeAll .nan b.shape idx c.vals } := by rw [hr]
  have rmask : r.mask = takeAll false b.shape idx b.mask := by rw [hr]
  have rshape : r.shape = idx.map List.length := by rw [BS.shape, rcoords]; exact hshape
  refine ⟨r, by unfold finalize; rw [hes, hr]; rfl, ⟨by rw [rdims]; exact hw.nodup, by rw [redges, rdims]; exact hesl,
    by rw [rcoords, rdims]; simpa using hesl, ?_, ?_, ?_⟩, ⟨rdims, by rw [hr], by rw [hr], rshape, by simp [rdata], ?_, ?_, ?_, ?_⟩⟩
  · intro i e c he hc
    rw [redges] at he
    rw [rcoords] at hc
    rw [List.getElem?_map, he, Option.map_some] at hc
    obtain rfl := Option.some.inj hc
    obtain ⟨hi, rfl⟩ := List.getElem?_eq_some_iff.mp he
    rw [centers_length]
    have := (hget i (by omega)).1
    omega
  · intro c hc
    rw [rdata, List.mem_map] at hc
    obtain ⟨c0, hc0, rfl⟩ := hc
    rw [rshape]
    exact takeAll_length _ _ _ (by omega) _ (hw.size c0 hc0)
  · rw [rshape, rmask]
    exact takeAll_length _ _ _ (by omega) _ hw.msize
  · intro k c hk
    refine ⟨{ c with vals := takeAll .nan b.shape idx c.vals }, by rw [rdata, List.getElem?_map, hk]; rfl, rfl, rfl, fun js hv => ?_⟩
    rw [rshape] at hv ⊢
    obtain ⟨h1, h2⟩ := takeAll_get Val.nan b.shape idx (by omega) c.vals (hw.size c (List.mem_of_getElem? hk)) hb js hv
    have hlt := flat_lt _ _ h1
    rw [← hw.size c (List.mem_of_getElem? hk)] at hlt
    exact ⟨h1, _, List.getElem?_eq_getElem hlt, h2.trans (List.getElem?_eq_getElem hlt)⟩
  · intro js hv
    rw [rshape] at hv ⊢
    rw [rmask]
    obtain ⟨h1, h2⟩ := takeAll_get false b.shape idx (by omega) b.mask hw.msize hb js hv
    have hlt := flat_lt _ _ h1
    rw [← hw.msize] at hlt
    exact ⟨_, List.getElem?_eq_getElem hlt, h2.trans (List.getElem?_eq_getElem hlt)⟩
  · intro ax l e hg hl' he
    obtain ⟨h1, rfl⟩ := List.getElem?_eq_some_iff.mp hl'
    obtain ⟨h2, rfl⟩ := List.getElem?_eq_some_iff.mp he
    rw [redges]
    exact ⟨_, List.getElem?_eq_getElem (by omega), (hget ax (by omega)).1, (hget ax (by omega)).2 (by
      rw [List.getD_eq_getElem _ _ (by omega), List.getD_eq_getElem _ _ (by omega)] at hg; exact hg)⟩
  · intro ax
    rw [rcoords, redges]
    exact List.getElem?_map

/-- **C44** for `take`: the bins kept are those in all masks and selectors, in order; data and mask go with the bins in any number of
dimensions, and so do the lower edges; all edges are those of the bins in a dimension where the bins kept are consecutive.
Missing: upper edges when a bin in between is left out, see `take_edges_iff` and `take_edges_wrong`. -/
theorem take_partial (b : BS A) (hw : WF b) (masks : List (List Bool)) (sels : List (String × Sel)) (ha : TakeArgs b masks sels) :
    ∃ (r : BS A) (idx : List (List Nat)), take b masks sels = .ok r ∧ WF r ∧ IsSelection b r idx (fun _ => True) ∧ idx.length = b.dims.length ∧
      (∀ (ax : Nat) (l : List Nat), idx[ax]? = some l → l.Pairwise (· < ·) ∧ ∀ x, x ∈ l ↔ Kept b masks sels ax x) ∧
      (∀ (ax : Nat) (l : List Nat) (e : List ℚ), idx[ax]? = some l → b.edges[ax]? = some e → Consecutive l →
        ∃ e', r.edges[ax]? = some e' ∧ OwnEdges e e' l) := by
  have hsl : b.shape.length = b.dims.length := by rw [shape_length, hw.lcoords]
  obtain ⟨ms, hms⟩ := mapM_exists (axisMask b masks sels) (List.range b.dims.length) fun ax hax => by
    obtain ⟨m, hm, -⟩ := axisMask_ok b hw masks sels ha ax (by simpa using hax)
    exact ⟨m, hm⟩
  have hf := (mapM_ok _ _ _).mp hms
  have hml : ms.length = b.dims.length := by have := hf.length_eq; simpa using this.symm
  obtain ⟨idx, hidx⟩ : ∃ idx : List (List Nat), idx = ms.map fun m => (List.range m.length).filter fun j => m.getD j false := ⟨_, rfl⟩
  have hil : idx.length = b.dims.length := by rw [hidx]; simpa using hml
  have hk : ∀ (ax : Nat) (l : List Nat), idx[ax]? = some l → l.Pairwise (· < ·) ∧ ∀ x, x ∈ l ↔ Kept b masks sels ax x := by
    intro ax l hl
    obtain ⟨hax, e⟩ := List.getElem?_eq_some_iff.mp hl
    have h1 := (List.forall₂_iff_get.mp hf).2 ax (by simp; omega) (by omega)
    simp only [List.get_eq_getElem, List.getElem_range] at h1
    obtain ⟨m, h2, h3, h4⟩ := axisMask_ok b hw masks sels ha ax (by omega)
    rw [h1] at h2
    have h2' := Except.ok.inj h2
    have el : l = (List.range m.length).filter fun j => m.getD j false := by
      rw [← e, ← h2']; simp [hidx]
    refine ⟨?_, fun x => ?_⟩
    · rw [el]; exact List.Pairwise.filter _ List.pairwise_lt_range
    · rw [el, List.mem_filter, List.mem_range, h3]
      constructor
      · rintro ⟨hx, hmx⟩; exact (h4 x hx).mp hmx
      · intro hkx; exact ⟨hkx.1, (h4 x hkx.1).mpr hkx⟩
  have hkb : ∀ i < b.shape.length, ∀ x ∈ idx.getD i [], x < b.shape.getD i 0 := by
    intro i hi x hx
    rw [List.getD_eq_getElem _ _ (by omega)] at hx
    exact (((hk i _ (List.getElem?_eq_getElem (by omega))).2 x).mp hx).1
  have hgd : ∀ i, (idx.map fun l => l.map Int.ofNat).getD i [] = (idx.getD i []).map Int.ofNat := by
    intro i
    simp only [List.getD_eq_getElem?_getD, List.getElem?_map]
    cases idx[i]? <;> rfl
  obtain ⟨r, hr, hwr, hsel0⟩ := finalize_sel b hw idx hil (idx.map fun l => l.map Int.ofNat) (by simpa using hil) hkb
    (by simp) (by
      intro i hi z hz
      rw [hgd] at hz
      obtain ⟨x, hx, rfl⟩ := List.mem_map.mp hz
      have := hkb i hi x hx
      constructor
      · exact (by omega : -((b.shape.getD i 0 : Nat) : Int) ≤ (x : Int))
      · exact (by omega : (x : Int) < (b.shape.getD i 0 : Nat)))
  have hsel : IsSelection b r idx (fun _ => True) :=
    ⟨hsel0.dims, hsel0.attrs, hsel0.fts, hsel0.shape, hsel0.ndata, hsel0.data, hsel0.mask,
      fun ax l e _ h1 h2 => hsel0.edges ax l e (hgd ax) h1 h2, hsel0.coords⟩
  refine ⟨r, idx, ?_, hwr, hsel, hil, hk, ?_⟩
  · unfold take
    rw [if_neg, if_neg, hms]
    · simp only [bind, Except.bind, pure, Except.pure]
      rw [← hidx]; exact hr
    · rw [List.any_eq_true]
      rintro ⟨s, hs, h⟩
      exact (by simpa using h : s.1 ∉ b.dims) (ha.names s hs)
    · rw [List.any_eq_true]
      rintro ⟨m, hm, h⟩
      exact (by simpa using h : m.length ≠ b.shape.prod) (ha.masks m hm)
  · intro ax l e hl he hc
    obtain ⟨e', h1, -, h2⟩ := hsel.edges ax l e trivial hl he
    exact ⟨e', h1, h2.own hc⟩

/-- When the edges increase, the edges of a selection are those of its bins exactly if the bins are consecutive. -/
theorem take_edges_iff (b : BS A) (hw : WF b) (masks : List (List Bool)) (sels : List (String × Sel)) (ha : TakeArgs b masks sels)
    (ax : Nat) (e : List ℚ) (he : b.edges[ax]? = some e) (hinc : e.Pairwise (· < ·)) :
    ∃ (r : BS A) (e' : List ℚ) (l : List Nat), take b masks sels = .ok r ∧ r.edges[ax]? = some e' ∧
      l.Pairwise (· < ·) ∧ (∀ x, x ∈ l ↔ Kept b masks sels ax x) ∧ (OwnEdges e e' l ↔ Consecutive l) := by
  obtain ⟨r, idx, h1, h2, h3, h4, h5, -⟩ := take_partial b hw masks sels ha
  have hax := (List.getElem?_eq_some_iff.mp he).1
  have hd : ax < idx.length := by have := hw.ledges; omega
  have hl := List.getElem?_eq_getElem hd
  obtain ⟨e', h6, h7, h8⟩ := h3.edges ax _ e trivial hl he
  refine ⟨r, e', idx[ax], h1, h6, (h5 ax _ hl).1, (h5 ax _ hl).2, h8.own_iff hinc fun x hx => ?_⟩
  have hk := (((h5 ax _ hl).2 x).mp hx).1
  have hcl : ax < b.coords.length := by have := hw.lcoords; have := hw.ledges; omega
  have hb := hw.bins ax e b.coords[ax] he (List.getElem?_eq_getElem hcl)
  rw [hb]
  rw [List.getD_eq_getElem _ _ (by rw [shape_length]; exact hcl)] at hk
  simpa [BS.shape] using hk

/-- Two dimensions of 3 and 2 bins with a variable. -/
def grid : BS Unit := ⟨["k", "mu"], [[0, 1, 2, 3], [0, 1/2, 1]], [[1/2, 3/2, 5/2], [1/4, 3/4]],
  [⟨"power", false, [.fin 0, .fin 1, .fin 10, .fin 11, .fin 20, .fin 21]⟩], [false, false, false, false, false, false], (), []⟩

theorem grid_wf : WF grid := by
  refine ⟨by decide, rfl, rfl, ?_, ?_, rfl⟩
  · intro i e c he hc
    match i, he, hc with
    | 0, he, hc => obtain rfl := Option.some.inj he; obtain rfl := Option.some.inj hc; rfl
    | 1, he, hc => obtain rfl := Option.some.inj he; obtain rfl := Option.some.inj hc; rfl
  · intro c hc
    simp only [grid, List.mem_singleton] at hc
    subst hc; rfl

/-- `grid.take(k=[0, 2])`. -/
def gridTake : Except Err (BS Unit) := take grid [] [("k", .ints [0, 2])]

theorem gridTake_args : TakeArgs grid [] [("k", .ints [0, 2])] := by
  refine ⟨by simp, by simp [grid], ?_⟩
  intro s hs ax hax
  obtain rfl := List.mem_singleton.mp hs
  match ax, hax with
  | 0, _ => intro z hz; revert z; decide
  | 1, hax => simp [grid] at hax

/-- The data are those of the bins 0 and 2, but the first bin becomes [0, 2], and the bin centers 1 and 5/2: **C44** is false. -/
theorem take_edges_wrong :
    (∃ r, gridTake = .ok r ∧ r.edges = [[0, 2, 3], [0, 1/2, 1]] ∧ r.coords = [[1, 5/2], [1/4, 3/4]] ∧
      r.data = [⟨"power", false, [.fin 0, .fin 1, .fin 20, .fin 21]⟩]) ∧
    ¬ OwnEdges [0, 1, 2, 3] [0, 2, 3] [0, 2] := by
  constructor
  · refine ⟨⟨["k", "mu"], [[0, 2, 3], [0, 1/2, 1]], [[1, 5/2], [1/4, 3/4]],
      [⟨"power", false, [.fin 0, .fin 1, .fin 20, .fin 21]⟩], [false, false, false, false], (), []⟩, ?_, rfl, rfl, rfl⟩
    decide +kernel
  · intro h
    have := (h 0 0 rfl).2
    simp at this

/-- Consecutive bins: `grid.take(k=[1, 2])`. -/
example : ∃ r, take grid [] [("k", .ints [1, -1])] = .ok r ∧ r.edges = [[1, 2, 3], [0, 1/2, 1]] ∧
    r.data = [⟨"power", false, [.fin 10, .fin 11, .fin 20, .fin 21]⟩] := by
  refine ⟨⟨["k", "mu"], [[1, 2, 3], [0, 1/2, 1]], [[3/2, 5/2], [1/4, 3/4]],
      [⟨"power", false, [.fin 10, .fin 11, .fin 20, .fin 21]⟩], [false, false, false, false], (), []⟩, ?_, rfl, rfl⟩
  decide +kernel

end NBK.Binned
