import Verif.Binned.SelectProps

/-!
# Indexing and squeezing (C44)
-/
set_option linter.unusedSimpArgs false
namespace NBK.Binned
open NBK.PySlice
variable {A : Type}

/-- The entries of `l` that belong to the dimensions satisfying `p`. -/
def keepBy {α : Type} (p : String → Bool) (dims : List String) (l : List α) : List α := ((dims.zip l).filter fun q => p q.1).map Prod.snd

theorem keepBy_cons {α : Type} (p : String → Bool) (d : String) (dims : List String) (x : α) (l : List α) :
    keepBy p (d :: dims) (x :: l) = if p d then x :: keepBy p dims l else keepBy p dims l := by
  unfold keepBy
  by_cases h : p d <;> simp [h]

theorem keepBy_congr {α : Type} (p q : String → Bool) (dims : List String) (l : List α) (h : ∀ d ∈ dims, p d = q d) :
    keepBy p dims l = keepBy q dims l := by
  unfold keepBy
  congr 1
  apply List.filter_congr
  intro x hx
  exact h _ (List.of_mem_zip hx).1

theorem keepBy_all {α : Type} (p : String → Bool) (dims : List String) (l : List α) (hl : l.length = dims.length) (h : ∀ d ∈ dims, p d = true) :
    keepBy p dims l = l := by
  induction dims generalizing l with
  | nil => obtain rfl := List.length_eq_zero_iff.mp hl; rfl
  | cons d dims ih =>
    cases l with
    | nil => simp at hl
    | cons x l =>
      rw [keepBy_cons, if_pos (h d (by simp)), ih l (by simpa using hl) fun d' hd => h d' (by simp [hd])]

theorem keepBy_erase {α : Type} (dims : List String) (hn : dims.Nodup) (l : List α) (hl : l.length = dims.length) (d : String) (hd : d ∈ dims) :
    l.eraseIdx (dims.idxOf d) = keepBy (fun x => decide (x ≠ d)) dims l := by
  induction dims generalizing l with
  | nil => cases hd
  | cons a dims ih =>
    cases l with
    | nil => simp at hl
    | cons x l =>
      obtain ⟨h1, h2⟩ := List.nodup_cons.mp hn
      rw [keepBy_cons]
      by_cases e : a = d
      · subst e
        rw [if_neg (by simp), List.idxOf_cons_self, List.eraseIdx_cons_zero, keepBy_all _ _ _ (by simpa using hl)]
        intro d' hd'
        simp only [decide_eq_true_eq]
        rintro rfl; exact h1 hd'
      · rw [if_pos (by simpa using e), List.idxOf_cons_ne _ e, List.eraseIdx_cons_succ, ih h2 l (by simpa using hl)]
        rcases List.mem_cons.mp hd with rfl | h
        · exact absurd rfl e
        · exact h

theorem keepBy_keepBy {α : Type} (p q : String → Bool) (dims : List String) (l : List α) (hl : l.length = dims.length) :
    keepBy q (keepBy p dims dims) (keepBy p dims l) = keepBy (fun x => p x && q x) dims l := by
  induction dims generalizing l with
  | nil => rfl
  | cons a dims ih =>
    cases l with
    | nil => simp at hl
    | cons x l =>
      have := ih l (by simpa using hl)
      have e : ∀ (p : String → Bool), (keepBy p (a :: dims) (a :: dims)) = if p a then a :: keepBy p dims dims else keepBy p dims dims :=
        fun p => keepBy_cons p a dims a dims
      rw [e, keepBy_cons, keepBy_cons]
      cases hp : p a
      · simp [this]
      · simp only [if_true, Bool.true_and]
        rw [keepBy_cons, this]

theorem keepBy_map {α β : Type} (f : α → β) (p : String → Bool) (dims : List String) (l : List α) :
    keepBy p dims (l.map f) = (keepBy p dims l).map f := by
  induction dims generalizing l with
  | nil => rfl
  | cons a dims ih =>
    cases l with
    | nil => rfl
    | cons x l =>
      rw [List.map_cons, keepBy_cons, keepBy_cons, ih]
      by_cases h : p a <;> simp [h]

theorem keepBy_self (p : String → Bool) (dims : List String) : keepBy p dims dims = dims.filter p := by
  induction dims with
  | nil => rfl
  | cons a dims ih => rw [keepBy_cons, ih, List.filter_cons]

/-- Leaving out dimensions of length one does not move the elements. -/
theorem flat_keepBy (p : String → Bool) (dims : List String) (shape js : List Nat) (hs : shape.length = dims.length) (hv : Valid shape js)
    (h1 : ∀ (i : Nat) (d : String), dims[i]? = some d → p d = false → shape[i]? = some 1) :
    (keepBy p dims shape).prod = shape.prod ∧ flat (keepBy p dims shape) (keepBy p dims js) = flat shape js ∧
      Valid (keepBy p dims shape) (keepBy p dims js) := by
  induction dims generalizing shape js with
  | nil =>
    obtain rfl := List.length_eq_zero_iff.mp hs
    obtain rfl : js = [] := List.length_eq_zero_iff.mp hv.1
    exact ⟨rfl, rfl, Valid.nil⟩
  | cons a dims ih =>
    cases shape with
    | nil => simp at hs
    | cons n s =>
      cases js with
      | nil => simp [Valid] at hv
      | cons j js =>
        obtain ⟨v0, v1⟩ := (valid_cons _ _ _ _).mp hv
        obtain ⟨i1, i2, i3⟩ := ih s js (by simpa using hs) v1 fun i d hd hp => by simpa using h1 (i + 1) d (by simpa using hd) hp
        rw [keepBy_cons, keepBy_cons]
        cases hp : p a
        · have : n = 1 := by simpa using h1 0 a rfl hp
          subst this
          obtain rfl : j = 0 := by omega
          simp only [Bool.false_eq_true, if_false]
          exact ⟨by simp [i1], by simp [flat, i2], i3⟩
        · simp only [if_true]
          refine ⟨by simp [i1], by simp [flat, i1, i2], (valid_cons _ _ _ _).mpr ⟨v0, i3⟩⟩

theorem keepBy_prod (p : String → Bool) (dims : List String) (shape : List Nat) (hs : shape.length = dims.length)
    (h1 : ∀ (i : Nat) (d : String), dims[i]? = some d → p d = false → shape[i]? = some 1) : (keepBy p dims shape).prod = shape.prod := by
  induction dims generalizing shape with
  | nil => obtain rfl := List.length_eq_zero_iff.mp hs; rfl
  | cons a dims ih =>
    cases shape with
    | nil => simp at hs
    | cons n s =>
      have := ih s (by simpa using hs) fun i d hd hp => by simpa using h1 (i + 1) d (by simpa using hd) hp
      rw [keepBy_cons]
      cases hp : p a
      · have e : n = 1 := by simpa using h1 0 a rfl hp
        simp [e, this]
      · simp [this]

/-- The object with only the dimensions satisfying `p`. -/
def BS.keep (b : BS A) (p : String → Bool) : BS A :=
  { b with dims := keepBy p b.dims b.dims, edges := keepBy p b.dims b.edges, coords := keepBy p b.dims b.coords }

theorem keep_shape (b : BS A) (p : String → Bool) : (b.keep p).shape = keepBy p b.dims b.shape := by
  simp only [BS.keep, BS.shape, keepBy_map]

theorem keepBy_zip {α β : Type} (p : String → Bool) (dims : List String) (l : List α) (m : List β) (hl : l.length = dims.length) (hm : m.length = dims.length)
    (R : α → β → Prop) (h : ∀ (i : Nat) (x : α) (y : β), l[i]? = some x → m[i]? = some y → R x y) :
    ∀ (i : Nat) (x : α) (y : β), (keepBy p dims l)[i]? = some x → (keepBy p dims m)[i]? = some y → R x y := by
  induction dims generalizing l m with
  | nil => intro i x y hx; simp [keepBy] at hx
  | cons a dims ih =>
    cases l with
    | nil => simp at hl
    | cons u l =>
      cases m with
      | nil => simp at hm
      | cons v m =>
        have := ih l m (by simpa using hl) (by simpa using hm) fun i x y hx hy => h (i + 1) x y (by simpa using hx) (by simpa using hy)
        rw [keepBy_cons, keepBy_cons]
        cases hp : p a
        · simpa using this
        · simp only [if_true]
          intro i x y hx hy
          cases i with
          | zero => exact h 0 x y (by simpa using hx) (by simpa using hy)
          | succ i => exact this i x y (by simpa using hx) (by simpa using hy)

theorem keepBy_length {α β : Type} (p : String → Bool) (dims : List String) (l : List α) (m : List β) (hl : l.length = dims.length) (hm : m.length = dims.length) :
    (keepBy p dims l).length = (keepBy p dims m).length := by
  induction dims generalizing l m with
  | nil => rfl
  | cons a dims ih =>
    cases l with
    | nil => simp at hl
    | cons u l =>
      cases m with
      | nil => simp at hm
      | cons v m =>
        rw [keepBy_cons, keepBy_cons]
        have := ih l m (by simpa using hl) (by simpa using hm)
        split <;> simp [this]

theorem keep_wf (b : BS A) (hw : WF b) (p : String → Bool)
    (h1 : ∀ (i : Nat) (d : String), b.dims[i]? = some d → p d = false → b.shape[i]? = some 1) : WF (b.keep p) := by
  have hsl : b.shape.length = b.dims.length := by rw [shape_length, hw.lcoords]
  have hp := keepBy_prod p b.dims b.shape hsl h1
  refine ⟨?_, ?_, ?_, ?_, ?_, ?_⟩
  · simp only [BS.keep, keepBy_self]; exact hw.nodup.filter _
  · exact keepBy_length p b.dims b.edges b.dims hw.ledges rfl
  · exact keepBy_length p b.dims b.coords b.dims hw.lcoords rfl
  · exact keepBy_zip p b.dims b.edges b.coords hw.ledges hw.lcoords _ hw.bins
  · intro c hc
    rw [keep_shape, hp]; exact hw.size c hc
  · rw [keep_shape, hp]; exact hw.msize

/-- `squeeze` removes the dimension and keeps data, mask, and the edges of the others. -/
theorem squeeze_eq (b : BS A) (hw : WF b) (d : String) (i : Nat) (hi : b.dims[i]? = some d) (h1 : b.shape[i]? = some 1) (hl : 1 < b.dims.length) :
    squeeze b d = .ok (b.keep fun x => decide (x ≠ d)) := by
  have hd : d ∈ b.dims := List.mem_of_getElem? hi
  have hix : b.dims.idxOf d = i := (idxOf_iff b.dims hw.nodup d hd i).mpr hi
  have hil := (List.getElem?_eq_some_iff.mp hi).1
  unfold squeeze
  dsimp only
  rw [hix, if_neg (by omega), if_neg (by rw [List.getD_eq_getElem?_getD, h1]; simp), if_neg (by omega)]
  rw [← hix, keepBy_erase b.dims hw.nodup b.dims rfl d hd, keepBy_erase b.dims hw.nodup b.edges hw.ledges d hd,
    keepBy_erase b.dims hw.nodup b.coords hw.lcoords d hd]
  rfl

theorem squeezeAll (names : List String) : ∀ (b : BS A), WF b → names.Nodup → (∀ d ∈ names, d ∈ b.dims) → names.length < b.dims.length →
    (∀ (i : Nat) (d : String), b.dims[i]? = some d → d ∈ names → b.shape[i]? = some 1) →
    names.foldlM squeeze b = .ok (b.keep fun x => decide (x ∉ names)) := by
  induction names with
  | nil =>
    intro b hw _ _ _ _
    have hk : ∀ {α : Type} (l : List α), l.length = b.dims.length → keepBy (fun x => decide (x ∉ ([] : List String))) b.dims l = l :=
      fun l hl => keepBy_all _ _ _ hl (by simp)
    simp only [List.foldlM_nil, BS.keep, hk b.dims rfl, hk b.edges hw.ledges, hk b.coords hw.lcoords]
    rfl
  | cons d names ih =>
    intro b hw hn hm hl h1
    obtain ⟨n1, n2⟩ := List.nodup_cons.mp hn
    obtain ⟨i, hi⟩ := List.mem_iff_getElem?.mp (hm d (by simp))
    have hs := squeeze_eq b hw d i hi (h1 i d hi (by simp)) (by simp at hl; omega)
    have h1' : ∀ (i : Nat) (x : String), b.dims[i]? = some x → (fun x => decide (x ≠ d)) x = false → b.shape[i]? = some 1 := by
      intro i x hx hp
      have : x = d := by simpa using hp
      exact h1 i x hx (by simp [this])
    have hw' := keep_wf b hw (fun x => decide (x ≠ d)) h1'
    have hdl : (b.keep fun x => decide (x ≠ d)).dims.length + 1 = b.dims.length := by
      have hd : d ∈ b.dims := List.mem_of_getElem? hi
      have := keepBy_erase b.dims hw.nodup b.dims rfl d hd
      have e : (b.keep fun x => decide (x ≠ d)).dims = b.dims.eraseIdx (b.dims.idxOf d) := this.symm
      have hlt := List.idxOf_lt_length_iff.mpr hd
      rw [e, List.length_eraseIdx_of_lt hlt]; omega
    rw [List.foldlM_cons, hs]
    simp only [bind, Except.bind]
    rw [ih _ hw' n2 (by
      intro x hx
      simp only [BS.keep, keepBy_self, List.mem_filter]
      refine ⟨hm x (by simp [hx]), ?_⟩
      simp only [decide_eq_true_eq]
      rintro rfl; exact n1 hx) (by simp at hl; omega) (by
      intro i x hx hxn
      have key := keepBy_zip (fun x => decide (x ≠ d)) b.dims b.dims b.shape rfl (by rw [shape_length, hw.lcoords])
        (fun y n => y ∈ names → n = 1) (by
          intro i y n hy hn' hyn
          have := h1 i y hy (by simp [hyn])
          rw [hn'] at this
          exact Option.some.inj this)
      have hil := (List.getElem?_eq_some_iff.mp hx).1
      have hsl' : (b.keep fun x => decide (x ≠ d)).shape.length = (b.keep fun x => decide (x ≠ d)).dims.length := by rw [shape_length, hw'.lcoords]
      have hsh := List.getElem?_eq_getElem (l := (b.keep fun x => decide (x ≠ d)).shape) (i := i) (by omega)
      rw [hsh]
      congr 1
      refine key i x _ hx ?_ hxn
      rw [← keep_shape]; exact hsh)]
    have hk : ∀ {α : Type} (l : List α), l.length = b.dims.length →
        keepBy (fun x => decide (x ∉ names)) (keepBy (fun x => decide (x ≠ d)) b.dims b.dims) (keepBy (fun x => decide (x ≠ d)) b.dims l) =
        keepBy (fun x => decide (x ∉ d :: names)) b.dims l := by
      intro α l hll
      rw [keepBy_keepBy _ _ _ _ hll]
      apply keepBy_congr
      intro x _
      simp [List.mem_cons, not_or]
    simp only [BS.keep, hk b.dims rfl, hk b.edges hw.ledges, hk b.coords hw.lcoords]

/-- A key that is valid on a dimension with `n` bins. -/
def Key.Ok (n : Nat) : Key → Prop
  | .int i => -(n : Int) ≤ i ∧ i < n
  | .list l => ∀ i ∈ l, -(n : Int) ≤ i ∧ i < n
  | .slice s => s.step ≠ some 0

/-- The bins `l` that a key stands for, of `n` bins. -/
def Key.Sel (n : Nat) : Key → List Nat → Prop
  | .int i, l => ∃ x, l = [x] ∧ x < n ∧ (i = x ∨ i + n = x)
  | .list z, l => List.Forall₂ (fun (i : Int) (x : Nat) => x < n ∧ (i = x ∨ i + n = x)) z l
  | .slice s, l => pySlice (List.range n) s = some l

/-- No negative index. -/
def Key.NonNeg : Key → Prop
  | .int i => 0 ≤ i
  | .list z => ∀ i ∈ z, 0 ≤ i
  | .slice _ => True

theorem wrapAll (n : Nat) (z : List Int) (h : ∀ i ∈ z, -(n : Int) ≤ i ∧ i < n) :
    ∃ l, z.mapM (wrap n) = .ok l ∧ List.Forall₂ (fun (i : Int) (x : Nat) => x < n ∧ (i = x ∨ i + n = x)) z l ∧
      ((∀ i ∈ z, 0 ≤ i) → z = l.map Int.ofNat) := by
  induction z with
  | nil => exact ⟨[], rfl, .nil, fun _ => rfl⟩
  | cons i z ih =>
    obtain ⟨l, h1, h2, h3⟩ := ih fun j hj => h j (by simp [hj])
    obtain ⟨x, hx, hl, hc⟩ := wrap_ok n i (h i (by simp))
    refine ⟨x :: l, by rw [List.mapM_cons, hx, h1]; rfl, .cons ⟨hl, by omega⟩ h2, fun hn => ?_⟩
    have h0 := hn i (by simp)
    rw [List.map_cons, ← h3 fun j hj => hn j (by simp [hj])]
    congr 1
    exact (by omega : i = (x : Int))

theorem key_ok (n : Nat) (k : Key) (h : k.Ok n) :
    ∃ (z : List Int) (l : List Nat), k.indices n = .ok z ∧ z.mapM (wrap n) = .ok l ∧ (∀ i ∈ z, -(n : Int) ≤ i ∧ i < n) ∧ z.length = l.length ∧
      (∀ x ∈ l, x < n) ∧ k.Sel n l ∧ (k.NonNeg → z = l.map Int.ofNat) := by
  have main : ∀ z : List Int, k.indices n = .ok z → (∀ i ∈ z, -(n : Int) ≤ i ∧ i < n) →
      (∀ l, List.Forall₂ (fun (i : Int) (x : Nat) => x < n ∧ (i = x ∨ i + n = x)) z l → k.Sel n l) → (k.NonNeg → ∀ i ∈ z, 0 ≤ i) → 
      ∃ (z : List Int) (l : List Nat), k.indices n = .ok z ∧ z.mapM (wrap n) = .ok l ∧ (∀ i ∈ z, -(n : Int) ≤ i ∧ i < n) ∧ z.length = l.length ∧
      (∀ x ∈ l, x < n) ∧ k.Sel n l ∧ (k.NonNeg → z = l.map Int.ofNat) := by
    intro z hz hb hs hn
    obtain ⟨l, h1, h2, h3⟩ := wrapAll n z hb
    refine ⟨z, l, hz, h1, hb, h2.length_eq, ?_, hs l h2, fun hk => h3 (hn hk)⟩
    intro x hx
    obtain ⟨i, -, hi⟩ := forall₂_mem_right h2 x hx
    exact hi.1
  cases k with
  | int i =>
    refine main [i] rfl (by simpa [Key.Ok] using h) ?_ (by simp [Key.NonNeg])
    intro l hl
    cases hl with
    | cons h1 h2 =>
      cases h2
      exact ⟨_, rfl, h1⟩
  | list z => exact main z rfl h (fun l hl => hl) (fun h => h)
  | slice s =>
    obtain ⟨a, b, c, hi⟩ : ∃ a b c, PySlice.indices n s = some (a, b, c) := by
      simp only [PySlice.indices]
      have : s.step.getD 1 ≠ 0 := by
        cases e : s.step with
        | none => simp
        | some v =>
          have h' : s.step ≠ some 0 := h
          rw [e] at h'
          simpa using h'
      rw [if_neg this]
      exact ⟨_, _, _, rfl⟩
    have hv := walk_valid n s a b c hi
    refine main (walk a b c) (by simp only [Key.indices, hi]) (fun i hm => by have := hv i hm; omega) ?_ (fun _ i hm => (hv i hm).1)
    intro l hl
    show pySlice (List.range n) s = some l
    have e : walk a b c = l.map (fun j : Nat => (j : Int)) := by
      rw [← List.forall₂_eq_eq_eq, List.forall₂_map_right_iff]
      have hall : ∀ z l, List.Forall₂ (fun (i : Int) (x : Nat) => x < n ∧ (i = x ∨ i + n = x)) z l → (∀ i ∈ z, 0 ≤ i) →
          List.Forall₂ (fun (i : Int) (x : Nat) => i = x) z l := by
        intro z l h
        induction h with
        | nil => intro _; exact .nil
        | cons h1 _ ih =>
          intro hp
          have := hp _ List.mem_cons_self
          exact .cons (by omega) (ih fun i hi => hp i (by simp [hi]))
      exact hall _ _ hl fun i hm => (hv i hm).1
    have hlt : ∀ x ∈ l, x < n := by
      intro x hx
      obtain ⟨i, -, hi⟩ := forall₂_mem_right hl x hx
      exact hi.1
    unfold pySlice
    rw [List.length_range, hi, Option.map_some]
    simp only
    rw [e, rowsAt_nat]
    congr 1
    clear hl e
    induction l with
    | nil => rfl
    | cons x l ih =>
      rw [List.filterMap_cons, List.getElem?_range (hlt x (by simp))]
      simp only
      rw [ih fun y hy => hlt y (by simp [hy])]

/-- The key of a dimension; missing ones are `:`. -/
def keyAt (keys : List Key) (ax : Nat) : Key := keys.getD ax (.slice ⟨none, none, none⟩)

/-- Arguments of `__getitem__` that are in the model and valid. -/
structure GetArgs (b : BS A) (keys : List Key) : Prop where
  len : keys.length ≤ b.dims.length
  ok : ∀ ax < b.dims.length, (keyAt keys ax).Ok (b.shape.getD ax 0)
  lists : keys.any Key.isList = true → (keys.filter Key.isList).length ≤ 1 ∧ keys.any Key.isInt = false
  some : ∃ ax < b.dims.length, (keyAt keys ax).isInt = false

/-- **C44** for `__getitem__`: with `idx` the bins that the keys stand for, `s` the selection of these bins: the result is `s` without
the dimensions indexed by an integer, and its elements are those of `s`. In the dimensions without negative indices where the bins are consecutive, all
edges are those of the bins. Missing: as for `take`, and lists with negative indices, see `getitem_negative`. -/
theorem getitem_partial (b : BS A) (hw : WF b) (keys : List Key) (ha : GetArgs b keys) :
    ∃ (r s : BS A) (idx : List (List Nat)) (p : String → Bool), getitem b keys = .ok r ∧ WF r ∧ r = s.keep p ∧
      (∀ (ax : Nat) (d : String), b.dims[ax]? = some d → p d = !(keyAt keys ax).isInt) ∧ idx.length = b.dims.length ∧
      (∀ (ax : Nat) (l : List Nat), idx[ax]? = some l → (keyAt keys ax).Sel (b.shape.getD ax 0) l) ∧
      IsSelection b s idx (fun ax => (keyAt keys ax).NonNeg) ∧
      (∀ js, Valid s.shape js → Valid r.shape (keepBy p b.dims js) ∧ flat r.shape (keepBy p b.dims js) = flat s.shape js) ∧
      (∀ (ax : Nat) (l : List Nat) (e : List ℚ), (keyAt keys ax).NonNeg → idx[ax]? = some l → b.edges[ax]? = some e → Consecutive l →
        ∃ e', s.edges[ax]? = some e' ∧ OwnEdges e e' l) := by
  have hsl : b.shape.length = b.dims.length := by rw [shape_length, hw.lcoords]
  have hlen := ha.len
  obtain ⟨K, hK⟩ : ∃ K, K = keys ++ List.replicate (b.dims.length - keys.length) (Key.slice ⟨none, none, none⟩) := ⟨_, rfl⟩
  have hKl : K.length = b.dims.length := by rw [hK]; simp; omega
  have hKat : ∀ (ax : Nat) (h : ax < K.length), K[ax] = keyAt keys ax := by
    intro ax h
    unfold keyAt
    rw [← Option.some_inj, ← List.getElem?_eq_getElem h, hK]
    by_cases c : ax < keys.length
    · rw [List.getElem?_append_left c, List.getD_eq_getElem _ _ c, List.getElem?_eq_getElem c]
    · rw [List.getElem?_append_right (by omega), List.getElem?_replicate, if_pos (by omega), List.getD_eq_default _ _ (by omega)]
  -- the indices
  obtain ⟨Z, hZ⟩ := mapM_exists (fun p : Nat × Key => p.2.indices p.1) (b.shape.zip K) (by
    intro q hq
    obtain ⟨i, hi, rfl⟩ := List.mem_iff_getElem.mp hq
    simp at hi
    obtain ⟨z, l, h1, -⟩ := key_ok (b.shape.getD i 0) (keyAt keys i) (ha.ok i (by omega))
    refine ⟨z, ?_⟩
    simp only [List.getElem_zip]
    rw [hKat, ← List.getD_eq_getElem _ 0]; exact h1)
  have hZf := (mapM_ok _ _ _).mp hZ
  have hZl : Z.length = b.dims.length := by have := hZf.length_eq; simp at this; omega
  have hZi : ∀ (i : Nat) (h : i < b.dims.length), (keyAt keys i).indices (b.shape.getD i 0) = .ok (Z[i]'(by omega)) := by
    intro i h
    have := (List.forall₂_iff_get.mp hZf).2 i (by simp; omega) (by omega)
    simp only [List.get_eq_getElem, List.getElem_zip] at this
    rw [hKat, ← List.getD_eq_getElem _ 0] at this
    exact this
  have hspec : ∀ (i : Nat) (h : i < b.dims.length), ∃ l, (Z[i]'(by omega)).mapM (wrap (b.shape.getD i 0)) = .ok l ∧
      (∀ z ∈ Z[i]'(by omega), -((b.shape.getD i 0 : Nat) : Int) ≤ z ∧ z < (b.shape.getD i 0 : Nat)) ∧ (Z[i]'(by omega)).length = l.length ∧
      (∀ x ∈ l, x < b.shape.getD i 0) ∧ (keyAt keys i).Sel (b.shape.getD i 0) l ∧ ((keyAt keys i).NonNeg → Z[i]'(by omega) = l.map Int.ofNat) := by
    intro i h
    obtain ⟨z, l, h1, h2⟩ := key_ok (b.shape.getD i 0) (keyAt keys i) (ha.ok i h)
    rw [hZi i h] at h1
    obtain rfl := Except.ok.inj h1
    exact ⟨l, h2⟩
  obtain ⟨idx, hidx⟩ := mapM_exists (fun p : Nat × List Int => p.2.mapM (wrap p.1)) (b.shape.zip Z) (by
    intro q hq
    obtain ⟨i, hi, rfl⟩ := List.mem_iff_getElem.mp hq
    simp at hi
    obtain ⟨l, h1, -⟩ := hspec i (by omega)
    refine ⟨l, ?_⟩
    simp only [List.getElem_zip]
    rw [← List.getD_eq_getElem _ 0]; exact h1)
  have hif := (mapM_ok _ _ _).mp hidx
  have hil : idx.length = b.dims.length := by have := hif.length_eq; simp at this; omega
  have hispec : ∀ (i : Nat) (h : i < b.dims.length),
      (∀ z ∈ Z[i]'(by omega), -((b.shape.getD i 0 : Nat) : Int) ≤ z ∧ z < (b.shape.getD i 0 : Nat)) ∧ (Z[i]'(by omega)).length = (idx[i]'(by omega)).length ∧
      (∀ x ∈ idx[i]'(by omega), x < b.shape.getD i 0) ∧ (keyAt keys i).Sel (b.shape.getD i 0) (idx[i]'(by omega)) ∧
      ((keyAt keys i).NonNeg → Z[i]'(by omega) = (idx[i]'(by omega)).map Int.ofNat) := by
    intro i h
    have := (List.forall₂_iff_get.mp hif).2 i (by simp; omega) (by omega)
    simp only [List.get_eq_getElem, List.getElem_zip] at this
    rw [← List.getD_eq_getElem _ 0] at this
    obtain ⟨l, h1, h2⟩ := hspec i h
    rw [this] at h1
    rw [Except.ok.inj h1]; exact h2
  obtain ⟨s, hs, hws, hsel⟩ := finalize_sel b hw idx hil Z hZl (by
      intro i hi x hx
      rw [List.getD_eq_getElem _ _ (by omega)] at hx
      exact (hispec i (by omega)).2.2.1 x hx) (by
      apply List.ext_getElem
      · simp; omega
      · intro i g1 g2
        simp only [List.length_map] at g1 g2
        simpa using (hispec i (by omega)).2.1) (by
      intro i hi z hz
      rw [List.getD_eq_getElem _ _ (by omega)] at hz
      exact (hispec i (by omega)).1 z hz)
  have hsel' : IsSelection b s idx (fun ax => (keyAt keys ax).NonNeg) := by
    refine ⟨hsel.dims, hsel.attrs, hsel.fts, hsel.shape, hsel.ndata, hsel.data, hsel.mask, fun ax l e hg h1 h2 => hsel.edges ax l e ?_ h1 h2, hsel.coords⟩
    have hax := (List.getElem?_eq_some_iff.mp h1).1
    show Z.getD ax [] = (idx.getD ax []).map Int.ofNat
    rw [List.getD_eq_getElem _ _ (by omega), List.getD_eq_getElem _ _ hax]
    exact (hispec ax (by omega)).2.2.2.2 hg
  -- the squeezed dimensions
  obtain ⟨sq, hsq⟩ : ∃ sq, sq = ((b.dims.zip K).filter fun p => p.2.isInt).map Prod.fst := ⟨_, rfl⟩
  have hsqs : sq.Sublist b.dims := by
    rw [hsq]
    have h1 : ((b.dims.zip K).filter fun p => p.2.isInt).Sublist (b.dims.zip K) := List.filter_sublist
    have h2 := h1.map Prod.fst
    rwa [List.map_fst_zip (by omega)] at h2
  have hsqm : ∀ (ax : Nat) (d : String), b.dims[ax]? = some d → (d ∈ sq ↔ (keyAt keys ax).isInt = true) := by
    intro ax d hd
    obtain ⟨hax, e⟩ := List.getElem?_eq_some_iff.mp hd
    rw [hsq, List.mem_map]
    constructor
    · rintro ⟨q, hq, rfl⟩
      obtain ⟨hq1, hq2⟩ := List.mem_filter.mp hq
      obtain ⟨i, hi, hqe⟩ := List.mem_iff_getElem.mp hq1
      simp at hi
      rw [List.getElem_zip] at hqe
      have : b.dims[i] = b.dims[ax] := by rw [e, ← hqe]
      have := (List.Nodup.getElem_inj_iff hw.nodup).mp this
      subst this
      rw [← hKat i (by omega)]
      rw [← hqe] at hq2; exact hq2
    · intro hk
      refine ⟨(d, keyAt keys ax), List.mem_filter.mpr ⟨?_, hk⟩, rfl⟩
      rw [List.mem_iff_getElem]
      exact ⟨ax, by simp; omega, by rw [List.getElem_zip, e, hKat]⟩
  have hsql : sq.length < b.dims.length := by
    obtain ⟨ax, hax, hni⟩ := ha.some
    rcases Nat.lt_or_ge sq.length b.dims.length with h | h
    · exact h
    · have := hsqs.eq_of_length_le h
      have hm : b.dims[ax] ∈ sq := by rw [this]; exact List.getElem_mem hax
      rw [(hsqm ax _ (List.getElem?_eq_getElem hax)).mp hm] at hni
      cases hni
  have hone : ∀ (i : Nat) (d : String), s.dims[i]? = some d → d ∈ sq → s.shape[i]? = some 1 := by
    intro i d hd hm
    rw [hsel.dims] at hd
    have hk := (hsqm i d hd).mp hm
    have hi := (List.getElem?_eq_some_iff.mp hd).1
    have hse := (hispec i hi).2.2.2.1
    rw [hsel.shape, List.getElem?_map, List.getElem?_eq_getElem (by omega), Option.map_some]
    cases hkk : keyAt keys i with
    | int z =>
      rw [hkk] at hse
      obtain ⟨x, hx, -⟩ := hse
      rw [hx]; rfl
    | list _ => rw [hkk] at hk; cases hk
    | slice _ => rw [hkk] at hk; cases hk
  have hsqz := squeezeAll sq s hws (hsqs.nodup hw.nodup) (by rw [hsel.dims]; exact fun d hd => hsqs.subset hd) (by rw [hsel.dims]; exact hsql) hone
  have hone' : ∀ (i : Nat) (d : String), s.dims[i]? = some d → (fun x => decide (x ∉ sq)) d = false → s.shape[i]? = some 1 := by
    intro i d hd hp
    exact hone i d hd (by simpa using hp)
  refine ⟨_, s, idx, fun x => decide (x ∉ sq), ?_, keep_wf s hws _ hone', rfl, ?_, hil, ?_, hsel', ?_, ?_⟩
  · unfold getitem
    rw [if_neg (by omega), if_neg, ← hK]
    · dsimp only
      rw [hZ]
      simp only [bind, Except.bind, pure, Except.pure]
      rw [← hsq, if_neg (by omega), hidx]
      simp only
      rw [hs]
      exact hsqz
    · rw [Bool.and_eq_true, Bool.or_eq_true]
      rintro ⟨h1, h2⟩
      obtain ⟨h3, h4⟩ := ha.lists h1
      rcases h2 with h | h
      · simp at h; omega
      · rw [h4] at h; cases h
  · intro ax d hd
    have := hsqm ax d hd
    cases hk : (keyAt keys ax).isInt
    · have : d ∉ sq := by rw [this, hk]; simp
      simp [this]
    · have : d ∈ sq := by rw [this, hk]
      simp [this]
  · intro ax l hl
    obtain ⟨hax, rfl⟩ := List.getElem?_eq_some_iff.mp hl
    exact (hispec ax (by omega)).2.2.2.1
  · intro js hv
    rw [keep_shape]
    rw [← hsel.dims]
    obtain ⟨h1, h2, h3⟩ := flat_keepBy (fun x => decide (x ∉ sq)) s.dims s.shape js (by rw [shape_length, hws.lcoords]) hv hone'
    exact ⟨h3, h2⟩
  · intro ax l e hn hl he hc
    obtain ⟨e', h1, -, h2⟩ := hsel'.edges ax l e hn hl he
    exact ⟨e', h1, h2.own hc⟩

/-- `grid[[-1]]`: the data are those of the last bin, [2, 3]; its edges become 3 and 0. -/
theorem getitem_negative : getitem grid [.list [-1]] = .ok ⟨["k", "mu"], [[3, 0], [0, 1/2, 1]], [[3/2], [1/4, 3/4]],
    [⟨"power", false, [.fin 20, .fin 21]⟩], [false, false], (), []⟩ := by decide +kernel

/-- `grid[::-1]`: the edges are 2, 1, 0, 1 for the bins [2, 3], [1, 2], [0, 1]. -/
theorem getitem_reversed : getitem grid [.slice ⟨none, none, some (-1)⟩] = .ok ⟨["k", "mu"], [[2, 1, 0, 1], [0, 1/2, 1]], [[3/2, 1/2, 1/2], [1/4, 3/4]],
    [⟨"power", false, [.fin 20, .fin 21, .fin 10, .fin 11, .fin 0, .fin 1]⟩], List.replicate 6 false, (), []⟩ := by decide +kernel

/-- `grid[1:, 0]`. -/
example : getitem grid [.slice ⟨some 1, none, none⟩, .int 0] = .ok ⟨["k"], [[1, 2, 3]], [[3/2, 5/2]],
    [⟨"power", false, [.fin 10, .fin 20]⟩], [false, false], (), []⟩ := by decide +kernel

example : GetArgs grid [.slice ⟨some 1, none, none⟩, .int 0] := by
  refine ⟨by decide, ?_, by decide, ⟨0, by decide, rfl⟩⟩
  intro ax hax
  match ax, hax with
  | 0, _ => simp [keyAt, Key.Ok]
  | 1, _ => simp [keyAt, Key.Ok, grid, BS.shape]

end NBK.Binned
