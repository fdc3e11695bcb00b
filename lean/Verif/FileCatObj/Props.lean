import Verif.FileCatObj.Model
import Verif.CatObj.DerivProps
import Verif.CatObj.RankProps
import Verif.FileCat.Props

/-! # Catalogs of files: what `query_range` gives -/
set_option linter.unusedSimpArgs false
namespace NBK.FileCatObj
open NBK.CatObj

variable {ρ V : Type}

/-! ## Ranges -/

theorem bound_nat (a m P r : Nat) : bound a m P r = ((a + r * m / P : Nat) : Int) := by
  unfold bound
  have e : (r : Int) * (m : Int) = ((r * m : Nat) : Int) := by push_cast; rfl
  rw [e, FileCat.fdiv_nat]
  push_cast
  rfl

theorem bound_mono (a : Int) (m P r : Nat) : bound a m P r ≤ bound a m P (r + 1) := by
  unfold bound
  have e1 : (r : Int) * (m : Int) = ((r * m : Nat) : Int) := by push_cast; rfl
  have e2 : ((r + 1 : Nat) : Int) * (m : Int) = (((r + 1) * m : Nat) : Int) := by push_cast; rfl
  rw [e1, e2, FileCat.fdiv_nat, FileCat.fdiv_nat]
  have : r * m / P ≤ (r + 1) * m / P := Nat.div_le_div_right (Nat.mul_le_mul_right _ (Nat.le_succ r))
  omega

/-- The rows of the file that a column of the catalog stands for. -/
theorem cut_eval (d : Range) (l : List ρ) (h : l.length = d.n) : (d.cut.filterMap fun k => l[k]?) = (PySlice.pySlice l ⟨some d.lstart, some d.lend, none⟩).getD [] := by
  unfold Range.cut PySlice.pySlice
  rw [List.length_range, h]
  cases PySlice.indices d.n ⟨some d.lstart, some d.lend, none⟩ with
  | none => rfl
  | some x =>
    show List.filterMap _ (PySlice.rowsAt (List.range d.n) (PySlice.walk x.1 x.2.1 x.2.2)) = PySlice.rowsAt l (PySlice.walk x.1 x.2.1 x.2.2)
    apply filterMap_of_map
    rw [← rowsAt_map, ← rowsAt_map]
    congr 1
    refine List.ext_getElem? fun k => ?_
    rw [List.getElem?_map, List.getElem?_map]
    by_cases hk : k < d.n
    · rw [List.getElem?_range hk, List.getElem?_eq_getElem (by omega)]
      simp only [Option.map_some]
      rw [List.getElem?_eq_getElem (by omega)]
    · rw [List.getElem?_eq_none (by simp; omega), List.getElem?_eq_none (by omega)]
      rfl

theorem cut_lt (d : Range) : ∀ k ∈ d.cut, k < d.n := by
  unfold Range.cut PySlice.pySlice
  intro k hk
  cases h : PySlice.indices (List.range d.n).length ⟨some d.lstart, some d.lend, none⟩ with
  | none => rw [h] at hk; simp at hk
  | some x =>
    rw [h] at hk
    have hk' : k ∈ PySlice.rowsAt (List.range d.n) (PySlice.walk x.1 x.2.1 x.2.2) := hk
    unfold PySlice.rowsAt at hk'
    obtain ⟨p, _, hp⟩ := List.mem_filterMap.mp hk'
    split at hp
    · cases hp
    · have := List.mem_of_getElem? hp
      exact List.mem_range.mp this

theorem cut_nat (n : Nat) (s e : Int) (a b : Nat) : (⟨n, s, e, a, b⟩ : Range).cut = ((List.range n).take b).drop a := by
  unfold Range.cut
  rw [PySlice.pySlice_nat]
  rfl

/-! ## The class -/

theorem hard_get (cols : List (String × Nat)) (dflt : List (String × ρ)) (c : String) :
    get c (fileCls cols dflt).hard = (get c cols).map fun b => fun (d : Range) => Col.rows (.buf b) d.cut := by
  unfold fileCls
  dsimp only
  induction cols with
  | nil => rfl
  | cons p cols ih =>
    rw [List.map_cons, get_cons, get_cons, ih]
    by_cases h : p.1 = c
    · rw [if_pos h, if_pos h]; rfl
    · rw [if_neg h, if_neg h]

/-- The catalog `i` has its own memory and reads the columns `cols` of a file of `n` rows. -/
structure Reads (w : World ρ Range V) (i : Nat) (cols : List (String × Nat)) (o : Obj ρ Range) : Prop where
  obj : w.objs[i]? = some o
  cls : ∃ dflt, o.cls = fileCls cols dflt
  base : o.base = none

/-! ## `query_range` -/

theorem query_shape (r P : Nat) (w : World ρ Range V) (i : Nat) (s e : Int) (p : World ρ Range V × Nat) (h : query r P w i s e = .ok p) :
    ∃ o k, w.objs[i]? = some o ∧ o.cls.name = fileName ∧ (o.base = none ∨ w.hardcolumns i = []) ∧ o.attrs = some k ∧
      p = ({ w with dicts := w.dicts ++ [(w.dicts[k]?).getD []] } : World ρ Range V).add (seek r P s e { o with attrs := some w.dicts.length }) := by
  unfold query at h
  cases ho : w.objs[i]? with
  | none => rw [ho] at h; cases h
  | some o =>
    rw [ho] at h
    dsimp only at h
    split at h
    · cases h
    · rename_i hn
      split at h
      · cases h
      · rename_i hg
        cases hc : copy w i with
        | error e => rw [hc] at h; cases h
        | ok q =>
          rw [hc] at h
          obtain ⟨o', cols, k, ho', hga, _, ha, hq⟩ := copy_shape w i q hc
          rw [ho] at ho'
          cases ho'
          cases h
          refine ⟨o, k, rfl, by simpa using hn, ?_, ha, ?_⟩
          · by_cases hb : o.base = none
            · exact Or.inl hb
            · right
              by_contra hh
              refine hg ⟨?_, hh⟩
              cases hx : o.base with
              | none => exact absurd hx hb
              | some _ => rfl
          · rw [hq]
            unfold World.add
            simp only [List.getElem?_append_right (Nat.le_refl _), Nat.sub_self, List.getElem?_cons_zero, Option.getD_some]
            rw [List.set_append_right _ _ (Nat.le_refl _)]
            simp only [Nat.sub_self, List.set_cons_zero]
            rfl

/-- When `query_range` gives a catalog: in a sound state, for every catalog of a file that has its own memory and attributes. -/
theorem query_ok_iff (r P : Nat) {w : World ρ Range V} (hw : Wf w) (i : Nat) (s e : Int) :
    (∃ p, query r P w i s e = .ok p) ↔ ∃ o, w.objs[i]? = some o ∧ o.cls.name = fileName ∧ (o.base = none ∨ w.hardcolumns i = []) ∧ o.attrs.isSome := by
  constructor
  · rintro ⟨p, h⟩
    obtain ⟨o, k, h1, h2, h3, h4, _⟩ := query_shape r P w i s e p h
    exact ⟨o, h1, h2, h3, by rw [h4]; rfl⟩
  · rintro ⟨o, h1, h2, h3, h4⟩
    obtain ⟨q, hq⟩ := (copy_ok_iff hw i).mpr ⟨o, h1, h4⟩
    unfold query
    rw [h1]
    dsimp only
    rw [if_neg (by simpa using h2), if_neg, hq]
    · exact ⟨_, rfl⟩
    · rintro ⟨a, b⟩
      rcases h3 with h3 | h3
      · rw [h3] at a; cases a
      · exact b h3

/-- The catalog that `query_range` gives: it is new, the columns are those of the file and the default ones, whatever was assigned is gone; what a column holds depends on the file, on
the `start` of the old catalog and on the arguments only: on slices, copies and assignments it does not depend. The attributes are a copy; nothing else has changed. -/
theorem query_spec (r P : Nat) (w w' : World ρ Range V) (i j : Nat) (s e : Int) (cols : List (String × Nat)) (o : Obj ρ Range) (hr : Reads w i cols o)
    (h : query r P w i s e = .ok (w', j)) :
    j = w.objs.length ∧ w'.bufs = w.bufs ∧ (∀ k, k < w.objs.length → w'.objs[k]? = w.objs[k]?) ∧
    (∃ o', Reads w' j cols o' ∧ o'.data = ⟨o.data.n, s, e, bound (o.data.start + s) (e - s) P r, bound (o.data.start + s) (e - s) P (r + 1)⟩ ∧
      o'.over = [] ∧ o'.cls = o.cls) ∧
    (∀ c b l, get c cols = some b → w.bufs[b]? = some l → l.length = o.data.n →
      w'.rows j c = .ok ((PySlice.pySlice l ⟨some (bound (o.data.start + s) (e - s) P r), some (bound (o.data.start + s) (e - s) P (r + 1)), none⟩).getD [])) ∧
    (∀ c, get c cols = none → get c o.cls.dflt = none → w'.rows j c = .error .keyError) ∧
    w'.attrsOf j = w.attrsOf i ∧ (∀ k, k < w.objs.length → ∀ v, (w.objs[k]?).bind Obj.attrs = some v → v < w.dicts.length → (w'.objs[j]?).bind Obj.attrs ≠ some v) := by
  obtain ⟨o', k, ho, hn, hb, ha, hp⟩ := query_shape r P w i s e (w', j) h
  have := ho.symm.trans hr.obj
  cases this
  have hj : j = w.objs.length := congrArg Prod.snd hp
  have hw' := congrArg Prod.fst hp
  dsimp only at hw'
  subst hj
  have a2 := (add_own_last ({ w with dicts := w.dicts ++ [(w.dicts[k]?).getD []] } : World ρ Range V) (seek r P s e { o with attrs := some w.dicts.length }) rfl).2
  have a3 := add_last ({ w with dicts := w.dicts ++ [(w.dicts[k]?).getD []] } : World ρ Range V) (seek r P s e { o with attrs := some w.dicts.length })
  dsimp only at a2 a3
  rw [← hw'] at a2 a3
  obtain ⟨dflt, hc⟩ := hr.cls
  refine ⟨rfl, by rw [hw']; rfl, ?_, ⟨_, ⟨a3, ⟨dflt, hc⟩, rfl⟩, rfl, rfl, rfl⟩, ?_, ?_, ?_, ?_⟩
  · intro q hq
    rw [hw']
    show (w.objs ++ [_])[q]? = _
    rw [List.getElem?_append_left hq]
  · intro c b l hcb hl hlen
    unfold World.rows World.read
    rw [a2]
    dsimp only
    unfold Obj.read seek
    dsimp only
    rw [hc, hard_get, hcb]
    have hnil : get c ([] : List (String × Col ρ)) = none := rfl
    rw [hnil]
    simp only [Option.map_some, Except.map]
    unfold Col.eval Col.eval
    rw [hw']
    show Except.ok (List.filterMap (fun q => (w.bufs[b]?.getD [])[q]?) _) = _
    rw [hl]
    simp only [Option.getD_some]
    rw [cut_eval ⟨o.data.n, s, e, _, _⟩ l hlen]
  · intro c hcb hd
    unfold World.rows World.read
    rw [a2]
    dsimp only
    unfold Obj.read seek
    dsimp only
    rw [hc] at hd ⊢
    rw [hard_get, hcb, hd]
    rfl
  · unfold World.attrsOf
    rw [a3, ho]
    show ((some w.dicts.length).bind fun q => w'.dicts[q]?).getD [] = ((o.attrs).bind fun q => w.dicts[q]?).getD []
    rw [ha, hw']
    show ((w.dicts ++ [_])[w.dicts.length]?).getD [] = (w.dicts[k]?).getD []
    rw [List.getElem?_append_right (Nat.le_refl _), Nat.sub_self]
    rfl
  · intro q _ v _ hv
    rw [a3]
    show some w.dicts.length ≠ some v
    intro hx
    have := Option.some.inj hx
    omega

/-- The size of the new catalog on the rank, and what the rank contributes to the total size. -/
theorem query_size (r P : Nat) (w w' : World ρ Range V) (i j : Nat) (s e : Int) (o : Obj ρ Range) (ho : w.objs[i]? = some o) (h : query r P w i s e = .ok (w', j)) :
    w'.size j = (bound (o.data.start + s) (e - s) P (r + 1) - bound (o.data.start + s) (e - s) P r).toNat ∧ w'.csize j = w'.size j := by
  obtain ⟨o2, k, ho2, _, _, _, hp⟩ := query_shape r P w i s e (w', j) h
  have := ho2.symm.trans ho
  cases this
  have hw' := congrArg Prod.fst hp
  have hj : j = w.objs.length := congrArg Prod.snd hp
  dsimp only at hw'
  have a2 := (add_own_last ({ w with dicts := w.dicts ++ [(w.dicts[k]?).getD []] } : World ρ Range V) (seek r P s e { o with attrs := some w.dicts.length }) rfl).2
  dsimp only at a2
  rw [← hw', ← hj] at a2
  unfold World.size World.csize
  rw [a2]
  exact ⟨rfl, rfl⟩

/-- A view of a catalog of a file is refused, although no column was attached: the guard looks at the columns of the file. -/
theorem view_refused (r P : Nat) (w : World ρ Range V) (i : Nat) (s e : Int) (o p : Obj ρ Range) (ho : w.objs[i]? = some o) (hn : o.cls.name = fileName) (hb : o.base.isSome)
    (hp : w.own i = some p) (cols : List (String × Nat)) (dflt : List (String × ρ)) (hc : p.cls = fileCls cols dflt) (hne : cols ≠ []) :
    query r P w i s e = .error .valueError := by
  unfold query
  rw [ho]
  dsimp only
  rw [if_neg (by simpa using hn), if_pos]
  refine ⟨hb, ?_⟩
  unfold World.hardcolumns
  rw [hp]
  obtain ⟨x, cols, rfl⟩ := List.exists_cons_of_ne_nil hne
  intro hx
  have hm : x.1 ∈ ((((fileCls (x :: cols) dflt).hard.map Prod.fst).dedup).insertionSort (· ≤ ·)) := by
    rw [List.mem_insertionSort, List.mem_dedup]
    exact List.mem_cons_self
  simp only [Option.map_some, Option.getD_some] at hx
  rw [hc] at hx
  rw [hx] at hm
  cases hm

/-- A catalog of other classes, such as a selection of columns, has no `query_range`. -/
theorem other_class (r P : Nat) (w : World ρ Range V) (i : Nat) (s e : Int) (o : Obj ρ Range) (ho : w.objs[i]? = some o) (hn : o.cls.name ≠ fileName) :
    query r P w i s e = .error .attributeError := by
  unfold query
  rw [ho]
  dsimp only
  rw [if_pos hn]

/-- Slices and copies of a catalog are forgotten: `query_range` of a slice gives the rows of the file, not the rows of the slice. -/
theorem slice_forgotten (r P : Nat) {w w1 w2 w3 : World ρ Range V} (hw : Wf w) (i j k k' : Nat) (ix : NBK.Slicing.Index) (s e : Int) (cols : List (String × Nat)) (o : Obj ρ Range)
    (hr : Reads w i cols o) (h1 : slice w i ix = .ok (w1, j) ∨ copy w i = .ok (w1, j)) (h2 : query r P w1 j s e = .ok (w2, k)) (h3 : query r P w i s e = .ok (w3, k'))
    (c : String) (b : Nat) (l : List ρ) (hc : get c cols = some b) (hl : w.bufs[b]? = some l) (hn : l.length = o.data.n) : w2.rows k c = w3.rows k' c := by
  have key : ∃ o', Reads w1 j cols o' ∧ o'.data = o.data ∧ w1.bufs = w.bufs := by
    rcases h1 with h1 | h1
    · by_cases hx : ix = .ellipsis
      · subst hx
        rw [slice_ellipsis w i (List.getElem?_eq_some_iff.mp hr.obj).1] at h1
        cases h1
        exact ⟨o, hr, rfl, rfl⟩
      · obtain ⟨hj, ho, hb, _, _, _, hd⟩ := slice_spec hw i ix hx w1 j h1
        obtain ⟨o2, ho2, ⟨e1, _⟩ | ⟨_, n, cs, l', _, _, _, _, _, hp⟩⟩ := slice_shape w i ix (w1, j) h1
        · exact absurd e1 hx
        · have hw1 := congrArg Prod.fst hp
          have := ho2.symm.trans hr.obj
          cases this
          subst hj
          have a3 := add_last w ⟨sliceCls w o, o.data, n, n, l'.foldl (fun l p => put p.1 p.2 l) [], none, o.attrs⟩
          dsimp only at hw1
          rw [← hw1] at a3
          refine ⟨_, ⟨a3, ?_, rfl⟩, rfl, hb⟩
          unfold sliceCls
          rw [hr.base]
          exact hr.cls
    · obtain ⟨hj, ho, hb, _, _, _, _, hd⟩ := copy_spec hw i w1 j h1
      obtain ⟨o2, cs, q, ho2, _, _, _, hp⟩ := copy_shape w i (w1, j) h1
      have := ho2.symm.trans hr.obj
      cases this
      have hw1 := congrArg Prod.fst hp
      dsimp only at hw1
      subst hj
      have a3 := add_last ({ w with dicts := w.dicts ++ [(w.dicts[q]?).getD []] } : World ρ Range V)
        ⟨o.cls, o.data, w.size i, w.csize i, (cs.map fun q => (q.1, q.2.1)).foldl (fun l p => put p.1 p.2 l) [], none, some w.dicts.length⟩
      dsimp only at a3
      rw [← hw1] at a3
      exact ⟨_, ⟨a3, hr.cls, rfl⟩, rfl, hb⟩
  obtain ⟨o', hr', hd, hb⟩ := key
  rw [(query_spec r P w1 w2 j k s e cols o' hr' h2).2.2.2.2.1 c b l hc (by rw [hb]; exact hl) (by rw [hd]; exact hn),
    (query_spec r P w w3 i k' s e cols o hr h3).2.2.2.2.1 c b l hc hl hn, hd]

/-! ## All ranks -/

theorem slice_bounds (l : List ρ) (a m P r : Nat) :
    (PySlice.pySlice l ⟨some (bound a m P r), some (bound a m P (r + 1)), none⟩).getD [] = (l.take (a + (r + 1) * m / P)).drop (a + r * m / P) := by
  rw [bound_nat, bound_nat, PySlice.pySlice_nat]
  rfl

/-- The ranks that ask for the same range have, one after the other, the rows of the file between `start + s` and `start + e`, where `start` is that of the old catalog: these are the
rows that are asked for if the old catalog is the whole file, or one that `query_range` gave from the whole file. Each rank has as many rows as its size says. -/
theorem query_ranks (P : Nat) (hP : 0 < P) (ws ws' : Nat → World ρ Range V) (i j : Nat → Nat) (a s e : Nat) (hse : s ≤ e) (cols : List (String × Nat)) (os : Nat → Obj ρ Range)
    (hr : ∀ r < P, Reads (ws r) (i r) cols (os r)) (ha : ∀ r < P, (os r).data.start = a) (c : String) (b : Nat) (hc : get c cols = some b) (l : List ρ)
    (hl : ∀ r < P, (ws r).bufs[b]? = some l ∧ l.length = (os r).data.n) (hq : ∀ r < P, query r P (ws r) (i r) s e = .ok (ws' r, j r)) (he : a + e ≤ l.length) :
    ∃ parts : Nat → List ρ, (∀ r < P, (ws' r).rows (j r) c = .ok (parts r) ∧ (parts r).length = (ws' r).size (j r)) ∧
      ((List.range P).map parts).flatten = (l.take (a + e)).drop (a + s) ∧ ((List.range P).map fun r => (ws' r).size (j r)).sum = e - s := by
  have hes : (e : Int) - s = ((e - s : Nat) : Int) := by omega
  have hsum : ∀ r : Nat, a + s + r * (e - s) / P ≤ a + s + (r + 1) * (e - s) / P := fun r =>
    Nat.add_le_add_left (Nat.div_le_div_right (Nat.mul_le_mul_right _ (Nat.le_succ r))) _
  have hend : a + s + P * (e - s) / P = a + e := by rw [Nat.mul_div_cancel_left _ hP]; omega
  have hle : ∀ r, r < P → a + s + (r + 1) * (e - s) / P ≤ a + e := by
    intro r hr
    rw [← hend]
    exact Nat.add_le_add_left (Nat.div_le_div_right (Nat.mul_le_mul_right _ hr)) _
  have hrow : ∀ r, r < P → (ws' r).rows (j r) c = .ok ((l.take (a + s + (r + 1) * (e - s) / P)).drop (a + s + r * (e - s) / P)) ∧
      (ws' r).size (j r) = (a + s + (r + 1) * (e - s) / P) - (a + s + r * (e - s) / P) := by
    intro r hrP
    obtain ⟨h1, h2, h3, ⟨o', ho', hd, _⟩, h5, _⟩ := query_spec r P (ws r) (ws' r) (i r) (j r) s e cols (os r) (hr r hrP) (hq r hrP)
    have h := h5 c b l hc (hl r hrP).1 (hl r hrP).2
    rw [ha r hrP, hes] at h
    have es : (a : Int) + (s : Int) = ((a + s : Nat) : Int) := by push_cast; rfl
    rw [es, slice_bounds] at h
    refine ⟨h, ?_⟩
    obtain ⟨o2, k, ho2, _, _, _, hp⟩ := query_shape r P (ws r) (i r) s e (ws' r, j r) (hq r hrP)
    have := ho2.symm.trans (hr r hrP).obj
    cases this
    have hw' := congrArg Prod.fst hp
    dsimp only at hw'
    have a2 := (add_own_last ({ ws r with dicts := (ws r).dicts ++ [((ws r).dicts[k]?).getD []] } : World ρ Range V) (seek r P s e { os r with attrs := some (ws r).dicts.length }) rfl).2
    dsimp only at a2
    rw [← hw', ← h1] at a2
    unfold World.size
    rw [a2]
    show (seek r P s e _).size = _
    unfold seek
    dsimp only
    rw [ha r hrP, hes, es, bound_nat, bound_nat]
    omega
  refine ⟨fun r => (l.take (a + s + (r + 1) * (e - s) / P)).drop (a + s + r * (e - s) / P), ?_, ?_, ?_⟩
  · intro r hrP
    obtain ⟨h1, h2⟩ := hrow r hrP
    refine ⟨h1, ?_⟩
    rw [h2, List.length_drop, List.length_take, Nat.min_eq_left (Nat.le_trans (hle r hrP) he)]
  · have := FileCat.pieces_flatten l (fun r => a + s + r * (e - s) / P) hsum P
    rw [hend] at this
    rw [this]
    simp
  · have : ∀ k, k ≤ P → ((List.range k).map fun r => (ws' r).size (j r)).sum = (a + s + k * (e - s) / P) - (a + s) := by
      intro k
      induction k with
      | zero => intro _; simp
      | succ k ih =>
        intro hk
        rw [List.range_succ, List.map_append, List.sum_append, ih (by omega)]
        simp only [List.map_cons, List.map_nil, List.sum_cons, List.sum_nil]
        rw [(hrow k (by omega)).2]
        have h1 := hsum k
        have h2 : a + s ≤ a + s + k * (e - s) / P := Nat.le_add_right _ _
        generalize a + s + k * (e - s) / P = x at *
        generalize a + s + (k + 1) * (e - s) / P = y at *
        omega
    rw [this P (Nat.le_refl _), hend]
    omega

end NBK.FileCatObj
