import Verif.StatObj.Model
import Mathlib.Tactic.Common
set_option linter.unusedSimpArgs false
/-!
# Lemmas: memory that only grows, well-formed objects
-/
namespace NBK.StatObj
open NBK.PySlice
variable {V : Type}

/-- The memory of `w'` continues that of `w`. -/
structure Ext (w w' : World V) : Prop where
  nums : w.nums <+: w'.nums
  cells : w.cells <+: w'.cells
  bits : w.bits <+: w'.bits
  names : w.names <+: w'.names
  boxes : w.boxes <+: w'.boxes

theorem Ext.refl (w : World V) : Ext w w := ⟨List.prefix_rfl, List.prefix_rfl, List.prefix_rfl, List.prefix_rfl, List.prefix_rfl⟩

theorem Ext.trans {a b c : World V} (h : Ext a b) (g : Ext b c) : Ext a c :=
  ⟨h.nums.trans g.nums, h.cells.trans g.cells, h.bits.trans g.bits, h.names.trans g.names, h.boxes.trans g.boxes⟩

theorem getD_prefix {α : Type} {l m : List α} (h : l <+: m) (k : Nat) (z : α) (hk : k < l.length) : m.getD k z = l.getD k z := by
  obtain ⟨t, rfl⟩ := h
  rw [List.getD_eq_getElem?_getD, List.getD_eq_getElem?_getD, List.getElem?_append_left hk]

theorem getD_append_self {α : Type} (l : List α) (x z : α) : (l ++ [x]).getD l.length z = x := by
  simp [List.getD_eq_getElem?_getD]

theorem pick_range {α : Type} (z : α) (l : List α) : pick z l (List.range l.length) = l := by
  apply List.ext_getElem
  · simp [pick]
  · intro i h1 h2
    simp [pick, List.getD_eq_getElem?_getD, h2]

theorem pick_length {α : Type} (z : α) (l : List α) (idx : List Nat) : (pick z l idx).length = idx.length := by simp [pick]

theorem getD_pick {α : Type} (z : α) (l : List α) (idx : List Nat) (k : Nat) (h : k < idx.length) : (pick z l idx).getD k z = l.getD (idx.getD k 0) z := by
  simp [pick, List.getD_eq_getElem?_getD, h]

theorem pick_pick {α : Type} (z : α) (l : List α) (idx o : List Nat) (h : ∀ k ∈ o, k < idx.length) :
    pick z (pick z l idx) o = pick z l (pick 0 idx o) := by
  unfold pick
  rw [List.map_map]
  apply List.map_congr_left
  intro k hk
  have := getD_pick z l idx k (h k hk)
  unfold pick at this
  rw [this]
  rfl

/-! ## Arrays that are in memory -/

/-- The array is in memory. -/
def Arr.In {α : Type} (mem : List (List α)) (a : Arr) : Prop := a.buf < mem.length ∧ ∀ k ∈ a.idx, k < (mem.getD a.buf []).length

/-- The structured array is in memory, its records have the size of its type, and its fields do not overlap. -/
structure DArr.In (mem : List (List (List V))) (d : DArr) : Prop where
  buf : d.buf < mem.length
  idx : ∀ k ∈ d.idx, k < (mem.getD d.buf []).length
  width : ∀ r ∈ mem.getD d.buf [], r.length = d.width
  slots : ∀ p ∈ d.fields, p.2 < d.width
  names : (d.fields.map Prod.fst).Nodup
  places : (d.fields.map Prod.snd).Nodup

theorem Arr.In.ext {α : Type} {mem mem' : List (List α)} {a : Arr} (h : a.In mem) (hm : mem <+: mem') : a.In mem' := by
  refine ⟨lt_of_lt_of_le h.1 hm.length_le, fun k hk => ?_⟩
  rw [getD_prefix hm _ _ h.1]
  exact h.2 k hk

theorem Arr.In.vals {α : Type} {mem mem' : List (List α)} {a : Arr} (z : α) (h : a.In mem) (hm : mem <+: mem') : a.vals z mem' = a.vals z mem := by
  unfold Arr.vals
  rw [getD_prefix hm _ _ h.1]

theorem DArr.In.ext {mem mem' : List (List (List V))} {d : DArr} (h : d.In mem) (hm : mem <+: mem') : d.In mem' := by
  have e := getD_prefix hm d.buf [] h.buf
  exact ⟨lt_of_lt_of_le h.buf hm.length_le, by rw [e]; exact h.idx, by rw [e]; exact h.width, h.slots, h.names, h.places⟩

theorem DArr.In.rows {mem mem' : List (List (List V))} {d : DArr} (h : d.In mem) (hm : mem <+: mem') : d.rows mem' = d.rows mem := by
  unfold DArr.rows
  rw [getD_prefix hm _ _ h.buf]

theorem DArr.In.col [Num V] {mem mem' : List (List (List V))} {d : DArr} (h : d.In mem) (hm : mem <+: mem') (s : Nat) : d.col mem' s = d.col mem s := by
  unfold DArr.col
  rw [h.rows hm]

theorem vals_length {α : Type} (z : α) (mem : List (List α)) (a : Arr) : (a.vals z mem).length = a.idx.length := pick_length _ _ _

theorem rows_length (mem : List (List (List V))) (d : DArr) : (d.rows mem).length = d.idx.length := pick_length _ _ _

theorem rows_width {mem : List (List (List V))} {d : DArr} (h : d.In mem) : ∀ r ∈ d.rows mem, r.length = d.width := by
  intro r hr
  obtain ⟨k, hk, rfl⟩ := List.mem_map.mp hr
  have hlt := h.idx k hk
  rw [List.getD_eq_getElem?_getD (l := mem.getD d.buf []), List.getElem?_eq_getElem hlt]
  exact h.width _ (List.getElem_mem hlt)

/-! ## Well-formed objects -/

/-- What holds of every object: the arrays are in memory, edges and coordinates belong to the dimensions, and the shapes agree. -/
structure Wf (w : World V) (st : Stat) : Prop where
  dims : st.dims.Nodup
  ekeys : st.edges.map Prod.fst = st.dims
  ckeys : st.coords.map Prod.fst = st.dims
  edges : ∀ p ∈ st.edges, p.2.In w.nums
  coords : ∀ p ∈ st.coords, p.2.In w.nums
  sizes : st.edges.map (fun p => p.2.idx.length) = st.coords.map fun p => p.2.idx.length + 1
  data : st.data.In w.cells
  mask : st.mask.In w.bits
  dsize : st.data.idx.length = st.size
  msize : st.mask.idx.length = st.size
  attrs : ∀ p ∈ st.attrs, p.2 < w.boxes.length
  fsum : st.fsum < w.names.length

theorem Wf.ext {w w' : World V} {st : Stat} (h : Wf w st) (e : Ext w w') : Wf w' st where
  dims := h.dims
  ekeys := h.ekeys
  ckeys := h.ckeys
  edges p hp := (h.edges p hp).ext e.nums
  coords p hp := (h.coords p hp).ext e.nums
  sizes := h.sizes
  data := h.data.ext e.cells
  mask := h.mask.ext e.bits
  dsize := h.dsize
  msize := h.msize
  attrs p hp := lt_of_lt_of_le (h.attrs p hp) e.boxes.length_le
  fsum := lt_of_lt_of_le h.fsum e.names.length_le

theorem Wf.obs [Num V] {w w' : World V} {st : Stat} (h : Wf w st) (e : Ext w w') : obs w' st = obs w st := by
  unfold StatObj.obs
  have h1 : ∀ l : List (String × Arr), (∀ p ∈ l, p.2.In w.nums) →
      (l.map fun p => (p.1, p.2.vals Num.zero w'.nums)) = l.map fun p => (p.1, p.2.vals Num.zero w.nums) := fun l hl =>
    List.map_congr_left fun p hp => by rw [(hl p hp).vals _ e.nums]
  have h2 : (st.data.fields.map fun p => (p.1, st.data.col w'.cells p.2)) = st.data.fields.map fun p => (p.1, st.data.col w.cells p.2) :=
    List.map_congr_left fun p _ => by rw [h.data.col e.cells]
  have h3 : (st.attrs.map fun p => (p.1, w'.boxes.getD p.2 Num.zero)) = st.attrs.map fun p => (p.1, w.boxes.getD p.2 Num.zero) :=
    List.map_congr_left fun p hp => by rw [getD_prefix e.boxes _ _ (h.attrs p hp)]
  rw [h1 _ h.edges, h1 _ h.coords, h2, h3, h.mask.vals _ e.bits, getD_prefix e.names _ _ h.fsum]

/-! ## The new arrays of edges and coordinates -/

theorem place_keys (base : Nat) (l : List (String × List V)) : (place base l).map Prod.fst = l.map Prod.fst := by
  induction l generalizing base with
  | nil => rfl
  | cons p l ih => simp [place, ih]

theorem place_lengths (base : Nat) (l : List (String × List V)) : (place base l).map (fun p => p.2.idx.length) = l.map fun p => p.2.length := by
  induction l generalizing base with
  | nil => rfl
  | cons p l ih => simp [place, ih]

theorem place_bufs (base : Nat) (l : List (String × List V)) : ∀ p ∈ place base l, base ≤ p.2.buf ∧ p.2.buf < base + l.length := by
  induction l generalizing base with
  | nil => intro p hp; cases hp
  | cons q l ih =>
    intro p hp
    rcases List.mem_cons.mp hp with rfl | hp
    · exact ⟨le_refl _, by simp⟩
    · have := ih (base + 1) p hp
      simp only [List.length_cons]
      omega

theorem place_in (pre post : List (List V)) (l : List (String × List V)) :
    ∀ p ∈ place pre.length l, p.2.In (pre ++ l.map Prod.snd ++ post) := by
  induction l generalizing pre with
  | nil => intro p hp; cases hp
  | cons q l ih =>
    intro p hp
    rcases List.mem_cons.mp hp with rfl | hp
    · refine ⟨by simp, fun k hk => ?_⟩
      simp only [List.mem_range] at hk
      simpa [List.getD_eq_getElem?_getD] using hk
    · have := ih (pre ++ [q.2]) p (by simpa using hp)
      simpa using this

theorem place_vals (z : V) (pre post : List (List V)) (l : List (String × List V)) :
    (place pre.length l).map (fun p => (p.1, p.2.vals z (pre ++ l.map Prod.snd ++ post))) = l := by
  induction l generalizing pre with
  | nil => rfl
  | cons q l ih =>
    have h1 : (place (pre.length + 1) l).map (fun p => (p.1, p.2.vals z (pre ++ (q :: l).map Prod.snd ++ post))) = l := by
      have := ih (pre ++ [q.2])
      simpa using this
    have h2 : (pre ++ (q :: l).map Prod.snd ++ post).getD pre.length [] = q.2 := by simp [List.getD_eq_getElem?_getD]
    rw [place, List.map_cons, h1]
    unfold Arr.vals
    dsimp only
    rw [h2, pick_range]

/-! ## Positions of selected elements -/

theorem offsets_lt (sh : List Nat) (ind : List (List Nat)) (hl : ind.length = sh.length)
    (h : ∀ p ∈ sh.zip ind, ∀ k ∈ p.2, k < p.1) : ∀ k ∈ offsets sh ind, k < sh.prod := by
  induction sh generalizing ind with
  | nil =>
    cases ind with
    | nil => intro k hk; simp [offsets] at hk; simp [hk]
    | cons _ _ => simp at hl
  | cons n sh ih =>
    cases ind with
    | nil => simp at hl
    | cons l ls =>
      intro k hk
      simp only [offsets, List.mem_flatMap, List.mem_map] at hk
      obtain ⟨i, hi, j, hj, rfl⟩ := hk
      have hin := h (n, l) (by simp) i hi
      have hjn := ih ls (by simpa using hl) (fun p hp => h p (by simp [hp])) j hj
      rw [List.prod_cons]
      calc i * sh.prod + j < i * sh.prod + sh.prod := by omega
        _ = (i + 1) * sh.prod := by rw [Nat.succ_mul]
        _ ≤ n * sh.prod := Nat.mul_le_mul_right _ hin

theorem offsets_length (sh : List Nat) (ind : List (List Nat)) (hl : ind.length = sh.length) :
    (offsets sh ind).length = (ind.map List.length).prod := by
  induction sh generalizing ind with
  | nil =>
    cases ind with
    | nil => rfl
    | cons _ _ => simp at hl
  | cons n sh ih =>
    cases ind with
    | nil => simp at hl
    | cons l ls =>
      have := ih ls (by simpa using hl)
      rw [List.map_cons, List.prod_cons, ← this, offsets]
      generalize offsets sh ls = o
      induction l with
      | nil => simp
      | cons a l ih2 => simp [Nat.succ_mul] at ih2 ⊢; omega

theorem offsets_all (sh : List Nat) : offsets sh (sh.map List.range) = List.range sh.prod := by
  induction sh with
  | nil => rfl
  | cons n sh ih =>
    rw [List.map_cons, offsets, ih, List.prod_cons]
    generalize sh.prod = m
    induction n with
    | zero => simp
    | succ n ihn => rw [List.range_succ, List.flatMap_append, ihn, Nat.succ_mul, List.range_add]; simp

end NBK.StatObj
