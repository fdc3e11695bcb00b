import Verif.FileCatObj.Props

/-! # Catalogs of files: what holds after every program -/
set_option linter.unusedSimpArgs false
namespace NBK.FileCatObj
open NBK.CatObj

variable {ρ V : Type}

/-- What is known of an object: a catalog of a file has its columns from arrays of the length of the file, and has attributes; a view has the range of the object that it views. -/
structure Sits (w : World ρ Range V) (o : Obj ρ Range) : Prop where
  file : o.cls.name = fileName → (∃ cols dflt, o.cls = fileCls cols dflt ∧ ∀ c b, get c cols = some b → ∃ l, w.bufs[b]? = some l ∧ l.length = o.data.n) ∧ o.attrs.isSome
  base : ∀ b p, o.base = some b → w.objs[b]? = some p → p.data = o.data ∧ (p.cls.name = fileName → o.attrs.isSome)

structure Inv (w : World ρ Range V) : Prop where
  wf : Wf w
  sits : ∀ (k : Nat) (o : Obj ρ Range), w.objs[k]? = some o → Sits w o

/-- The conditions on the operations: files exist with columns of one length; other classes are not called like the catalogs of files; a query does not leave the file. -/
def Tame (w : World ρ Range V) : Op ρ V → Prop
  | .cat op => CatObj.Tame w op ∧ (∀ cls d n, op = .new cls d n → cls.name ≠ fileName) ∧ (∀ i cls, op = .view i (some cls) → cls.name ≠ fileName)
  | .openFile f _ => ∀ c b, get c f.cols = some b → ∃ l, w.bufs[b]? = some l ∧ l.length = f.n
  | .query i s e => ∀ o, w.objs[i]? = some o → 0 ≤ o.data.start + s ∧ s ≤ e ∧ o.data.start + e ≤ o.data.n

def TameRun (E : Env ρ) (r P : Nat) : World ρ Range V → List (Op ρ V) → Prop
  | _, [] => True
  | w, op :: ops => Tame w op ∧ TameRun E r P (step E r P w op) ops

theorem sits_old {w w' : World ρ Range V} (hw : Inv w) (hg : Grow w.bufs w'.bufs)
    (h : ∀ (k : Nat) (o : Obj ρ Range), w.objs[k]? = some o → ∃ o', w'.objs[k]? = some o' ∧ Same o o' ∧ (o.attrs.isSome → o'.attrs.isSome)) (k : Nat) (hk : k < w.objs.length)
    (o' : Obj ρ Range) (ho : w'.objs[k]? = some o') : Sits w' o' := by
  obtain ⟨o1, ho1, ⟨s1, s2, s3, s4, s5⟩, ha⟩ := h k _ (List.getElem?_eq_getElem hk)
  rw [ho] at ho1
  cases ho1
  have hs := hw.sits k _ (List.getElem?_eq_getElem hk)
  refine ⟨?_, ?_⟩
  · intro hn
    rw [s1] at hn
    obtain ⟨⟨cols, dflt, hc, hl⟩, hat⟩ := hs.file hn
    refine ⟨⟨cols, dflt, s1.trans hc, fun c b hb => ?_⟩, ha hat⟩
    obtain ⟨l, h1, h2⟩ := hl c b hb
    obtain ⟨l', h3, h4⟩ := hg b l h1
    exact ⟨l', h3, by rw [s2, h4, h2]⟩
  · intro b p hb hp
    rw [s5] at hb
    have hbk : b < w.objs.length := Nat.lt_trans (hw.wf.chain k _ (List.getElem?_eq_getElem hk) b hb) hk
    obtain ⟨p1, hp1, ⟨t1, t2, _⟩, _⟩ := h b _ (List.getElem?_eq_getElem hbk)
    rw [hp] at hp1
    cases hp1
    obtain ⟨u1, u2⟩ := hs.base b _ hb (List.getElem?_eq_getElem hbk)
    refine ⟨by rw [t2, s2, u1], fun hn => ha (u2 ?_)⟩
    rw [← t1]; exact hn

/-- An object that is added. -/
theorem inv_add {w : World ρ Range V} (hw : Inv w) (ds : List (List (String × V))) (o : Obj ρ Range) (hwf : Wf (({ w with dicts := ds } : World ρ Range V).add o).1)
    (hs : Sits w o) (hb : ∀ b, o.base = some b → b < w.objs.length) : Inv (({ w with dicts := ds } : World ρ Range V).add o).1 := by
  refine ⟨hwf, fun k p hk => ?_⟩
  by_cases hlt : k < w.objs.length
  · refine sits_old (w' := (({ w with dicts := ds } : World ρ Range V).add o).1) hw (grow_refl _) (fun k o ho => ⟨o, ?_, ⟨rfl, rfl, rfl, rfl, rfl⟩, id⟩) k hlt p hk
    exact add_old ({ w with dicts := ds } : World ρ Range V) _ k o ho
  · have hk' : (w.objs ++ [o])[k]? = some p := hk
    have hle : k < (w.objs ++ [o]).length := (List.getElem?_eq_some_iff.mp hk').1
    rw [List.length_append, List.length_singleton] at hle
    have : k = w.objs.length := by omega
    subst this
    rw [List.getElem?_append_right (Nat.le_refl _), Nat.sub_self, List.getElem?_cons_zero] at hk'
    cases hk'
    refine ⟨hs.file, fun b q hb' hq => hs.base b q hb' ?_⟩
    have hq' : (w.objs ++ [o])[b]? = some q := hq
    rw [List.getElem?_append_left (hb b hb')] at hq'
    exact hq'

theorem inv_slice {w : World ρ Range V} (hw : Inv w) (i : Nat) (ix : NBK.Slicing.Index) (p : World ρ Range V × Nat) (h : slice w i ix = .ok p) (hwf : Wf p.1) : Inv p.1 := by
  obtain ⟨o, ho, ⟨_, rfl⟩ | ⟨_, n, cols, l, _, _, _, _, _, rfl⟩⟩ := slice_shape w i ix p h
  · exact hw
  · refine inv_add hw w.dicts _ hwf ⟨?_, fun b p hb => by cases hb⟩ (fun b hb => by cases hb)
    dsimp only
    unfold sliceCls
    cases hb : o.base with
    | none => exact (hw.sits i o ho).file
    | some b =>
      have hbk : b < w.objs.length := Nat.lt_trans (hw.wf.chain i o ho b hb) (List.getElem?_eq_some_iff.mp ho).1
      have hq := List.getElem?_eq_getElem hbk
      dsimp only
      rw [hq]
      simp only [Option.map_some, Option.getD_some]
      intro hn
      obtain ⟨u1, u2⟩ := (hw.sits i o ho).base b _ hb hq
      obtain ⟨h1, _⟩ := (hw.sits b _ hq).file hn
      rw [u1] at h1
      exact ⟨h1, u2 hn⟩

theorem inv_cat (plain : Cls ρ Range) (hplain : plain.hard = []) (hpn : plain.name ≠ fileName) {w w' : World ρ Range V} (hw : Inv w) (op : CatObj.Op ρ Range V)
    (ht : Tame w (.cat op)) (h : CatObj.exec plain w op = .ok w') : Inv w' := by
  have hwf := wf_exec plain hplain w w' hw.wf op ht.1 h
  obtain ⟨hg, _, he⟩ := exec_effect plain w w' op h
  have hold : ∀ (k : Nat) (o : Obj ρ Range), w.objs[k]? = some o → ∃ o', w'.objs[k]? = some o' ∧ Same o o' ∧ (o.attrs.isSome → o'.attrs.isSome) := by
    intro k o ho
    obtain ⟨o', h1, h2, _, h3⟩ := he k o ho
    exact ⟨o', h1, h2, fun hs => by rw [h3 hs]; exact hs⟩
  have same : kind op = (0, 0) → Inv w' := by
    intro hk
    have := exec_table plain w w' op h
    rw [if_pos hk] at this
    have hl : w'.objs.length = w.objs.length := by simpa [table] using congrArg List.length this
    refine ⟨hwf, fun k o' ho => sits_old hw hg hold k ?_ o' ho⟩
    rw [← hl]
    exact (List.getElem?_eq_some_iff.mp ho).1
  cases op with
  | newBuf l => exact same rfl
  | poke b l => exact same rfl
  | set i c v => exact same rfl
  | del i c => exact same rfl
  | touch i => exact same rfl
  | attr i k v => exact same rfl
  | new cls data size =>
    cases h
    exact inv_add hw w.dicts _ hwf ⟨fun hn => absurd hn (ht.2.1 cls data size rfl), fun b p hb => by cases hb⟩ (fun b hb => by cases hb)
  | view i ty =>
    simp only [CatObj.exec, view] at h
    cases ho : w.objs[i]? with
    | none => rw [ho] at h; cases h
    | some o =>
      rw [ho] at h
      cases h
      refine inv_add hw w.dicts _ hwf ⟨?_, ?_⟩ ?_
      · cases ty with
        | none => exact (hw.sits i o ho).file
        | some cls => exact fun hn => absurd hn (ht.2.2 i cls rfl)
      · intro b p hb hp
        cases hb
        rw [ho] at hp
        cases hp
        exact ⟨rfl, fun hn => ((hw.sits _ o ho).file hn).2⟩
      · intro b hb
        cases hb
        exact (List.getElem?_eq_some_iff.mp ho).1
  | copy i =>
    simp only [CatObj.exec] at h
    cases hc : copy w i with
    | error e => rw [hc] at h; cases h
    | ok p =>
      rw [hc] at h
      cases h
      obtain ⟨o, cols, r, ho, _, _, _, rfl⟩ := copy_shape w i p hc
      refine inv_add hw _ _ hwf ⟨fun hn => ⟨((hw.sits i o ho).file hn).1, rfl⟩, fun b p hb => by cases hb⟩ (fun b hb => by cases hb)
  | slice i ix =>
    simp only [CatObj.exec] at h
    cases hc : slice w i ix with
    | error e => rw [hc] at h; cases h
    | ok p =>
      rw [hc] at h
      cases h
      exact inv_slice hw i ix p hc hwf
  | select i names =>
    simp only [CatObj.exec] at h
    cases hc : select plain w i names with
    | error e => rw [hc] at h; cases h
    | ok p =>
      rw [hc] at h
      cases h
      by_cases hne : names = []
      · subst hne
        have hc' : slice w i (.ints []) = .ok p := by
          unfold select at hc
          cases ho : w.objs[i]? with
          | none => rw [ho] at hc; cases hc
          | some o => rw [ho] at hc; exact hc
        exact inv_slice hw i _ p hc' hwf
      · refine ⟨hwf, fun k o' ho => ?_⟩
        by_cases hk : k < w.objs.length
        · exact sits_old hw hg hold k hk o' ho
        · obtain ⟨o, cols, hoi, _, _, _, _, hp⟩ := select_shape plain w i names p hc hne
          dsimp only at hp
          rw [hp] at ho
          have hi : i < w.objs.length := (List.getElem?_eq_some_iff.mp hoi).1
          have hlen := (touch_bufs ((({ w with dicts := w.dicts ++ [[]] } : World ρ Range V).add
            ⟨plain, o.data, w.size i, w.size i, (cols.map fun q => (q.1, q.2.1)).foldl (fun l p => put p.1 p.2 l) [], none, some w.dicts.length⟩).1) i).2.1
          have hkk : k < w.objs.length + 1 := by
            have := (List.getElem?_eq_some_iff.mp ho).1
            rw [hlen] at this
            simpa [World.add] using this
          have : k = w.objs.length := by omega
          subst this
          obtain ⟨o2, ho2, ⟨s1, s2, s3, s4, s5⟩, _⟩ := touch_old ((({ w with dicts := w.dicts ++ [[]] } : World ρ Range V).add
            ⟨plain, o.data, w.size i, w.size i, (cols.map fun q => (q.1, q.2.1)).foldl (fun l p => put p.1 p.2 l) [], none, some w.dicts.length⟩).1) i w.objs.length _
            (add_last ({ w with dicts := w.dicts ++ [[]] } : World ρ Range V) _)
          have ho3 := ho2.symm.trans ho
          cases ho3
          refine ⟨fun hn => absurd hn (by rw [s1]; exact hpn), fun b p hb => ?_⟩
          rw [s5] at hb
          cases hb

/-- A range within the file has as many rows as its ends say. -/
theorem cut_length (d : Range) (h0 : 0 ≤ d.lstart) (h2 : d.lstart ≤ d.lend) (h1 : d.lend ≤ d.n) : d.cut.length = (d.lend - d.lstart).toNat := by
  obtain ⟨a, ha⟩ := Int.eq_ofNat_of_zero_le h0
  obtain ⟨b, hb⟩ := Int.eq_ofNat_of_zero_le (Int.le_trans h0 h2)
  have : d = ⟨d.n, d.start, d.stop, a, b⟩ := by rw [← ha, ← hb]
  rw [this, cut_nat, List.length_drop, List.length_take, List.length_range]
  dsimp only
  rw [hb] at h1
  omega

theorem bounds_in (a m : Int) (hm : 0 ≤ m) (P r : Nat) (hr : r < P) : a ≤ bound a m P r ∧ bound a m P r ≤ bound a m P (r + 1) ∧ bound a m P (r + 1) ≤ a + m := by
  obtain ⟨k, rfl⟩ := Int.eq_ofNat_of_zero_le hm
  refine ⟨?_, bound_mono a k P r, ?_⟩
  · unfold bound
    have e1 : (r : Int) * (k : Int) = ((r * k : Nat) : Int) := by push_cast; rfl
    rw [e1, FileCat.fdiv_nat]
    generalize r * k / P = x
    omega
  · unfold bound
    have e1 : ((r + 1 : Nat) : Int) * (k : Int) = (((r + 1) * k : Nat) : Int) := by push_cast; rfl
    rw [e1, FileCat.fdiv_nat]
    have : (r + 1) * k / P ≤ k := by
      apply Nat.div_le_of_le_mul
      exact Nat.mul_le_mul_right _ hr
    omega

/-- A new catalog of a file whose range is within the file. -/
theorem inv_file {w : World ρ Range V} (hw : Inv w) (cols : List (String × Nat)) (dflt : List (String × ρ)) (d : Range) (ds : List (List (String × V))) (hds : w.dicts.length < ds.length)
    (hl : ∀ c b, get c cols = some b → ∃ l, w.bufs[b]? = some l ∧ l.length = d.n) (h0 : 0 ≤ d.lstart) (h2 : d.lstart ≤ d.lend) (h1 : d.lend ≤ d.n) (m : Nat)
    (hm : m = (d.lend - d.lstart).toNat) :
    Inv (({ w with dicts := ds } : World ρ Range V).add ⟨fileCls cols dflt, d, m, m, [], none, some w.dicts.length⟩).1 := by
  refine inv_add hw _ _ (wf_add (wf_dicts hw.wf ds (Nat.le_of_lt hds)) _ ⟨fun b hb => (by cases hb), fun c x hx => (by cases hx), fun _ c f hf _ => ?_⟩ (fun r hr => ?_))
    ⟨fun _ => ⟨⟨cols, dflt, rfl, hl⟩, rfl⟩, fun b p hb => by cases hb⟩ (fun b hb => by cases hb)
  · dsimp only at hf ⊢
    rw [hard_get] at hf
    cases hb : get c cols with
    | none => rw [hb] at hf; cases hf
    | some b =>
      rw [hb] at hf
      cases hf
      obtain ⟨l, hl1, hl2⟩ := hl c b hb
      refine ⟨⟨(List.getElem?_eq_some_iff.mp hl1).1, fun k hk => ?_⟩, ?_⟩
      · show k < ((w.bufs[b]?).getD []).length
        rw [hl1]
        simp only [Option.getD_some]
        rw [hl2]
        exact cut_lt d k hk
      · show d.cut.length = m
        rw [cut_length d h0 h2 h1, hm]
  · cases hr
    exact hds

theorem inv_open (dflt : List (String × ρ)) (r P : Nat) (hr : r < P) {w : World ρ Range V} (hw : Inv w) (f : File V) (attrs : List (String × V)) (ht : Tame w (.openFile f attrs)) :
    Inv (openFile dflt r P w f attrs).1 := by
  obtain ⟨a1, a2, a3⟩ := bounds_in 0 f.n (Int.natCast_nonneg _) P r hr
  exact inv_file hw f.cols dflt ⟨f.n, 0, f.n, bound 0 f.n P r, bound 0 f.n P (r + 1)⟩ _ (by simp) ht a1 a2 (by dsimp only; omega) _ rfl

theorem inv_query (r P : Nat) (hr : r < P) {w w' : World ρ Range V} (hw : Inv w) (i j : Nat) (s e : Int) (ht : Tame w (.query i s e)) (h : query r P w i s e = .ok (w', j)) : Inv w' := by
  obtain ⟨o, k, ho, hn, _, ha, hp⟩ := query_shape r P w i s e (w', j) h
  obtain ⟨t1, t2, t3⟩ := ht o ho
  obtain ⟨⟨cols, dflt, hc, hl⟩, _⟩ := (hw.sits i o ho).file hn
  obtain ⟨a1, a2, a3⟩ := bounds_in (o.data.start + s) (e - s) (by omega) P r hr
  have hw' := congrArg Prod.fst hp
  dsimp only at hw'
  rw [hw']
  have := inv_file hw cols dflt ⟨o.data.n, s, e, bound (o.data.start + s) (e - s) P r, bound (o.data.start + s) (e - s) P (r + 1)⟩ (w.dicts ++ [(w.dicts[k]?).getD []]) (by simp) hl
    (by dsimp only; omega) a2 (by dsimp only; omega) _ rfl
  rw [← hc] at this
  exact this

theorem inv_step (E : Env ρ) (hE : E.plain.hard = []) (hn : E.plain.name ≠ fileName) (r P : Nat) (hr : r < P) {w : World ρ Range V} (hw : Inv w) (op : Op ρ V) (ht : Tame w op) :
    Inv (step E r P w op) := by
  unfold step
  cases h : exec E r P w op with
  | error e => exact hw
  | ok w' =>
    dsimp only
    cases op with
    | cat op => exact inv_cat E.plain hE hn hw op ht h
    | openFile f attrs =>
      cases h
      exact inv_open E.dflt r P hr hw f attrs ht
    | query i s e =>
      have h' : (query r P w i s e).map Prod.fst = .ok w' := h
      cases hq : query r P w i s e with
      | error x => rw [hq] at h'; cases h'
      | ok p =>
        rw [hq] at h'
        cases h'
        exact inv_query r P hr hw i p.2 s e ht hq

theorem inv_run (E : Env ρ) (hE : E.plain.hard = []) (hn : E.plain.name ≠ fileName) (r P : Nat) (hr : r < P) :
    ∀ (ops : List (Op ρ V)) (w : World ρ Range V), Inv w → TameRun E r P w ops → Inv (run E r P w ops)
  | [], _, hw, _ => hw
  | op :: ops, w, hw, ht => inv_run E hE hn r P hr ops (step E r P w op) (inv_step E hE hn r P hr hw op ht.1) ht.2

theorem inv_empty : Inv (⟨[], [], []⟩ : World ρ Range V) := ⟨wf_empty, fun _ _ h => by simp at h⟩

/-- After every program: the columns of a catalog are in order, each has exactly as many rows as the catalog, and there are no others. -/
theorem program_sized (E : Env ρ) (hE : E.plain.hard = []) (hn : E.plain.name ≠ fileName) (r P : Nat) (hr : r < P) (ops : List (Op ρ V)) (ht : TameRun E r P ⟨[], [], []⟩ ops) (i : Nat) :
    let w := run E r P ⟨[], [], []⟩ ops
    (w.columns i).Pairwise (· < ·) ∧ (∀ c ∈ w.columns i, ∃ l, w.rows i c = .ok l ∧ l.length = w.size i) ∧
      (i < w.objs.length → ∀ c, c ∉ w.columns i → w.rows i c = .error .keyError) := by
  intro w
  have hw : Wf w := (inv_run E hE hn r P hr ops _ inv_empty ht).wf
  refine ⟨?_, ?_, ?_⟩
  · unfold World.columns
    cases w.own i with
    | none => exact List.Pairwise.nil
    | some o => exact columns_sorted o
  · intro c hc
    obtain ⟨x, hx⟩ := (read_iff w i c).mpr hc
    obtain ⟨h1, h2⟩ := read_sized hw i c x.1 x.2 hx
    exact ⟨x.1.eval w.bufs, by unfold World.rows; rw [hx]; rfl, by rw [eval_length _ _ h1, h2]⟩
  · intro hi c hc
    obtain ⟨o, ho⟩ := own_some w i hi
    unfold World.rows World.read
    rw [ho]
    dsimp only
    unfold World.columns at hc
    rw [ho] at hc
    rw [obj_read_error o c hc]
    rfl

/-- After every program, every catalog of a file with its own memory can be asked for every range: also for those that leave the file. -/
theorem program_query (E : Env ρ) (hE : E.plain.hard = []) (hn : E.plain.name ≠ fileName) (r P : Nat) (hr : r < P) (ops : List (Op ρ V)) (ht : TameRun E r P ⟨[], [], []⟩ ops) (i : Nat)
    (o : Obj ρ Range) (ho : (run E r P ⟨[], [], []⟩ ops).objs[i]? = some o) (hf : o.cls.name = fileName) (hb : o.base = none) (s e : Int) :
    ∃ w' j cols, Reads (run E r P ⟨[], [], []⟩ ops) i cols o ∧ query r P (run E r P ⟨[], [], []⟩ ops) i s e = .ok (w', j) ∧
      ∀ c b, get c cols = some b → ∃ l, (run E r P ⟨[], [], []⟩ ops).bufs[b]? = some l ∧
        w'.rows j c = .ok ((PySlice.pySlice l ⟨some (bound (o.data.start + s) (e - s) P r), some (bound (o.data.start + s) (e - s) P (r + 1)), none⟩).getD []) := by
  have hw := inv_run E hE hn r P hr ops _ inv_empty ht
  obtain ⟨⟨cols, dflt, hc, hl⟩, ha⟩ := (hw.sits i o ho).file hf
  obtain ⟨⟨w', j⟩, hq⟩ := (query_ok_iff r P hw.wf i s e).mpr ⟨o, ho, hf, Or.inl hb, ha⟩
  have hR : Reads (run E r P ⟨[], [], []⟩ ops) i cols o := ⟨ho, ⟨dflt, hc⟩, hb⟩
  refine ⟨w', j, cols, hR, hq, fun c b hcb => ?_⟩
  obtain ⟨l, h1, h2⟩ := hl c b hcb
  exact ⟨l, h1, (query_spec r P _ w' i j s e cols o hR hq).2.2.2.2.1 c b l hcb h1 h2⟩

end NBK.FileCatObj
