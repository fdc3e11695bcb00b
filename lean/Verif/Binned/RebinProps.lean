import Verif.Binned.ReindexLemmas
import Verif.Binned.SelectProps
import Mathlib.Algebra.BigOperators.Intervals

/-!
# Re-binning (C45)
-/
set_option linter.unusedSimpArgs false
namespace NBK.Binned
variable {A : Type}

theorem linspace_length (a b : ℚ) (m : Nat) : (linspace a b m).length = m + 1 := by simp [linspace]

/-- The value of a new bin in terms of the old values `l` and the old weights. -/
structure IsRebinned (sum : List String) (name : String) (l : List Val) (ws : Option (List Val)) (v : Val) : Prop where
  summed : name ∈ sum → v = .fin (nums l).sum
  mean : name ∉ sum → ws = none → v = if nums l = [] then .nan else .fin ((nums l).sum / (nums l).length)
  wmean : name ∉ sum → ∀ qs : List ℚ, ws = some (qs.map Val.fin) → qs.length = l.length → qs.sum ≠ 0 →
    v = .fin ((List.zipWith wnum l qs).sum / qs.sum)

theorem newVal_spec (sum : List String) (name : String) (k1 k2 : Nat) (l : List Val) (ws : Option (List Val)) (h : NoInf l) :
    IsRebinned sum name l ws (newVal sum name k1 k2 l ws) := by
  refine ⟨fun hs => ?_, fun hs hw => ?_, fun hs qs hw hq hW => ?_⟩
  · unfold newVal; rw [if_pos hs]; exact sum_passes k1 k2 l h
  · unfold newVal; rw [if_neg hs, hw]; exact nanmean_eq l h
  · unfold newVal; rw [if_neg hs, hw]
    simp only
    have ew : (qs.map Val.fin) = (List.range l.length).map fun t => Val.fin (qs.getD t 0) := by
      apply List.ext_getElem
      · simp [hq]
      · intro t g1 g2
        have : t < qs.length := by simpa using g1
        simp [List.getElem?_eq_getElem this]
    have eq : qs = (List.range l.length).map fun t => qs.getD t 0 := by
      apply List.ext_getElem
      · simp [hq]
      · intro t g1 g2
        simp [List.getElem?_eq_getElem g1]
    have ez : (List.zipWith wnum l qs) = (List.range l.length).map fun t => wnum (l.getD t .nan) (qs.getD t 0) := by
      apply List.ext_getElem
      · simp [hq]
      · intro t g1 g2
        have h1 : t < qs.length := by simp at g1; omega
        have h2 : t < l.length := by simp at g1; omega
        simp [List.getElem?_eq_getElem h1, List.getElem?_eq_getElem h2]
    have hW' : ((List.range l.length).map fun t => qs.getD t 0).sum ≠ 0 := by rw [← eq]; exact hW
    have key := wmean_passes k1 k2 l.length (fun t => l.getD t .nan) (fun t => qs.getD t 0) (by
      intro t ht s
      rw [List.getD_eq_getElem _ _ ht]
      exact h _ (List.getElem_mem ht) s) hW'
    rw [← ez, ← eq, ← ew] at key
    rw [← key]
    congr 3
    apply List.map_congr_left
    intro t ht
    have ht' : t < qs.length := by simp at ht; omega
    have : (qs.map Val.fin).getD t .nan = .fin (qs.getD t 0) := by
      rw [List.getD_eq_getElem _ _ (by simpa using ht'), List.getD_eq_getElem _ _ ht']; simp
    rw [this]

/-- `reindex` succeeds, and what it returns. -/
theorem reindex_eq (oldNumpy : Bool) (b : BS A) (hw : WF b) (dim : String) (spacing : ℚ) (weights : Weights) (force : Bool) (sum : List String)
    (i n f : Nat) (ha : ReindexArgs oldNumpy b dim spacing weights force sum i n f) (w : Option (Bool × List Val)) (hwt : getWeights b weights = .ok w) :
    ∃ (r : BS A) (e : List ℚ), reindex oldNumpy b dim spacing weights force sum = .ok r ∧ r.dims = b.dims ∧ r.attrs = b.attrs ∧ r.fts = b.fts ∧
      r.shape = b.shape.set i (n / f) ∧ b.edges[i]? = some e ∧ e.length = n + 1 ∧
      r.edges = b.edges.set i (linspace (e.getD 0 0) (e.getD (n / f * f) 0) (n / f)) ∧
      r.coords = b.coords.set i (centers (linspace (e.getD 0 0) (e.getD (n / f * f) 0) (n / f))) ∧
      r.mask = maskOf r.shape.prod r.data ∧ r.data.length = b.data.length ∧
      ∀ (k : Nat) (c : Col), b.data[k]? = some c → ∃ vals : List Val, r.data[k]? = some { c with vals := vals.map (store c.int) } ∧
        vals.length = r.shape.prod ∧ ∀ js, Valid r.shape js → ∃ (l : List Val) (ws : Option (List Val)), IsOld b.shape i f c.vals js l ∧
          (w = none → ws = none) ∧ (∀ p, w = some p → ∃ wl, ws = some wl ∧ IsOld b.shape i f p.2 js wl) ∧
          vals[flat r.shape js]? = some (newVal sum c.name i (b.shape.length - i - 1) l ws) := by
  obtain ⟨hil, hdim⟩ := List.getElem?_eq_some_iff.mp ha.dim
  have hidx : b.dims.idxOf dim = i := by rw [← hdim]; exact hw.nodup.idxOf_getElem i hil
  obtain ⟨hsl, hn⟩ := List.getElem?_eq_some_iff.mp ha.bins
  have hcl : i < b.coords.length := by rw [hw.lcoords]; exact hil
  have hel : i < b.edges.length := by rw [hw.ledges]; exact hil
  obtain ⟨cs, hcs⟩ : ∃ cs, b.coords[i]? = some cs := ⟨_, List.getElem?_eq_getElem hcl⟩
  obtain ⟨e, he⟩ : ∃ e, b.edges[i]? = some e := ⟨_, List.getElem?_eq_getElem hel⟩
  have hcn : cs.length = n := by
    have h1 : b.shape[i]? = some cs.length := by simp [BS.shape, hcs]
    rw [ha.bins] at h1; exact (Option.some.inj h1).symm
  have hen : e.length = n + 1 := by rw [hw.bins i e cs he hcs, hcn]
  have h2 := ha.two
  have hle := ha.le
  obtain ⟨c0, c1, ct, hc01⟩ : ∃ c0 c1 ct, cs = c0 :: c1 :: ct := by
    match cs, hcn with
    | [], h => simp at h; omega
    | [_], h => simp at h; omega
    | c0 :: c1 :: ct, _ => exact ⟨c0, c1, ct, rfl⟩
  have hfac := ha.factor c0 c1 ct (by rw [hcs, hc01])
  have hcd : b.coords.getD i [] = cs := by rw [List.getD_eq_getElem?_getD, hcs]; rfl
  have hed : b.edges.getD i [] = e := by rw [List.getD_eq_getElem?_getD, he]; rfl
  obtain ⟨w', hw', hwp⟩ := ha.weights
  rw [hwt] at hw'
  obtain rfl := Except.ok.inj hw'
  -- the shape around the axis
  obtain ⟨s1, s2, hsh, hs1⟩ : ∃ s1 s2, b.shape = s1 ++ n :: s2 ∧ s1.length = i :=
    ⟨b.shape.take i, b.shape.drop (i + 1), by rw [← hn]; simp, by simp; omega⟩
  obtain ⟨m, hm⟩ : ∃ m, m = n / f := ⟨_, rfl⟩
  have hkept : n - n % f = m * f := by
    have := Nat.div_add_mod n f
    rw [hm, Nat.mul_comm]; omega
  have hmp : 0 < m := by rw [hm]; exact Nat.div_pos hle (by omega)
  have hmn : m * f ≤ n := by omega
  have hset : ∀ x, b.shape.set i x = s1 ++ x :: s2 := by
    intro x; rw [hsh, ← hs1, List.set_append_right _ _ le_rfl]; simp
  have hp1 : ∀ d ∈ s1, 0 < d := fun d hd => ha.pos d (by rw [hsh]; simp [hd])
  have hp2 : ∀ d ∈ s2, 0 < d := fun d hd => ha.pos d (by rw [hsh]; simp [hd])
  have hs2 : b.shape.length - i - 1 = s2.length := by rw [hsh, ← hs1]; simp
  -- the variables
  have hcol : ∀ c ∈ b.data, ∃ c', rebinCol sum (s1 ++ (m * f) :: s2) (s1 ++ m :: s2)
        (w.map fun p => (p.1, takeAxis .nan (s1 ++ n :: s2) s1.length (List.range (m * f)) p.2))
        { c with vals := takeAxis .nan (s1 ++ n :: s2) s1.length (List.range (m * f)) c.vals } = .ok c' ∧
      ∃ vals : List Val, c' = { c with vals := vals.map (store c.int) } ∧
        vals.length = (s1 ++ m :: s2).prod ∧ ∀ js, Valid (s1 ++ m :: s2) js → ∃ (l : List Val) (ws : Option (List Val)),
          IsOld (s1 ++ n :: s2) s1.length f c.vals js l ∧
          (w = none → ws = none) ∧ (∀ p, w = some p → ∃ wl, ws = some wl ∧ IsOld (s1 ++ n :: s2) s1.length f p.2 js wl) ∧
          vals[flat (s1 ++ m :: s2) js]? = some (newVal sum c.name s1.length s2.length l ws) := by
    intro c hc
    obtain ⟨vals, v1, v2, v3⟩ := rebinCol_ok sum s1 s2 n m f hp1 hp2 hmp hmn w (fun p hp => by rw [← hsh]; exact (hwp p hp).1) c
      (by rw [← hsh]; exact hw.size c hc) (fun hs p hp => (hwp p hp).2.2 c hc hs)
    exact ⟨_, v1, vals, rfl, v2, v3⟩
  obtain ⟨data, hd1, hd2⟩ : ∃ data, b.data.mapM (fun c => rebinCol sum (b.shape.set i (n - n % f)) (b.shape.set i ((n - n % f) / f))
        (w.map fun p => (p.1, takeAxis .nan b.shape i (List.range (n - n % f)) p.2))
        { c with vals := takeAxis .nan b.shape i (List.range (n - n % f)) c.vals }) = .ok data ∧
      List.Forall₂ (fun c c' => ∃ vals : List Val, c' = { c with vals := vals.map (store c.int) } ∧
        vals.length = (s1 ++ m :: s2).prod ∧ ∀ js, Valid (s1 ++ m :: s2) js → ∃ (l : List Val) (ws : Option (List Val)),
          IsOld (s1 ++ n :: s2) s1.length f c.vals js l ∧
          (w = none → ws = none) ∧ (∀ p, w = some p → ∃ wl, ws = some wl ∧ IsOld (s1 ++ n :: s2) s1.length f p.2 js wl) ∧
          vals[flat (s1 ++ m :: s2) js]? = some (newVal sum c.name s1.length s2.length l ws)) b.data data := by
    rw [hkept, Nat.mul_div_cancel _ (by omega : 0 < f)]
    simp only [hset]
    rw [hsh, ← hs1]
    generalize b.data = D at hcol
    induction D with
    | nil => exact ⟨[], rfl, .nil⟩
    | cons c D ih =>
      obtain ⟨c', h1, h2⟩ := hcol c (by simp)
      obtain ⟨D', h3, h4⟩ := ih fun x hx => hcol x (by simp [hx])
      refine ⟨c' :: D', ?_, .cons h2 h4⟩
      rw [mapM_ok] at h3 ⊢
      exact .cons h1 h3
  refine ⟨{ b with
    edges := b.edges.set i (linspace (e.getD 0 0) (e.getD (m * f) 0) m)
    coords := b.coords.set i (centers (linspace (e.getD 0 0) (e.getD (m * f) 0) m))
    data := data
    mask := maskOf (b.shape.set i m).prod data }, e, ?_, rfl, rfl, rfl, ?_, he, hen, by rw [hm], by rw [hm], ?_, ?_, ?_⟩
  · unfold reindex
    dsimp only
    rw [hidx, if_neg (by omega)]
    simp only [bind, Except.bind, pure, Except.pure]
    have hold : cs.getD 1 0 - cs.getD 0 0 = c1 - c0 := by rw [hc01]; rfl
    rw [hcd, hcn, if_neg (by omega)]
    rw [hold, hfac, if_neg (by omega)]
    have hc1 : (!allclose ((c1 - c0) * ((f : Int) : ℚ)) spacing && !force) = false := by
      cases hf : force with
      | true => simp
      | false =>
        have := (ha.close hf).2 c0 c1 ct (by rw [hcs, hc01])
        simp [this]
    rw [hc1]
    simp only [Bool.false_eq_true, if_false, hwt, Int.toNat_natCast]
    have hc2 : (decide (n % f ≠ 0) && !force) = false := by
      cases hf : force with
      | true => simp
      | false => simp [(ha.close hf).1]
    have hc3 : (decide (n % f ≠ 0) && w.isSome && !oldNumpy) = false := by
      cases w with
      | none => simp
      | some p =>
        by_cases h0 : n % f = 0
        · simp [h0]
        · simp [(hwp p rfl).2.1 h0]
    rw [hc2, hc3]
    simp only [Bool.false_eq_true, if_false]
    rw [hd1]
    dsimp only
    have hlast : (e.take (e.length - n % f)).getLastD 0 = e.getD (m * f) 0 := by
      have hmod := Nat.mod_le n f
      rw [hen, show n + 1 - n % f = m * f + 1 by omega, List.getLastD_eq_getLast?, List.getLast?_eq_getElem?, List.length_take, hen,
        Nat.min_eq_left (by omega), Nat.add_sub_cancel, List.getElem?_take_of_lt (by omega), List.getD_eq_getElem?_getD]
    have hfst : (e.take (e.length - n % f)).getD 0 0 = e.getD 0 0 := by
      have hmod := Nat.mod_le n f
      rw [List.getD_eq_getElem?_getD, List.getElem?_take_of_lt (by omega), List.getD_eq_getElem?_getD]
    rw [hed, hlast, hfst, hkept, Nat.mul_div_cancel _ (by omega : 0 < f)]
  · simp only [BS.shape, List.map_set]
    rw [centers_length, linspace_length, hm]; simp
  · simp only [BS.shape, List.map_set]
    rw [centers_length, linspace_length, Nat.add_sub_cancel]
  · exact hd2.length_eq.symm
  · intro k c hk
    obtain ⟨hkl, hkc⟩ := List.getElem?_eq_some_iff.mp hk
    have hkl' : k < data.length := by rw [← hd2.length_eq]; exact hkl
    obtain ⟨vals, h1, h2, h3⟩ := (List.forall₂_iff_get.mp hd2).2 k hkl hkl'
    simp only [List.get_eq_getElem, hkc] at h1 h2 h3
    have hrs : ({ b with
      edges := b.edges.set i (linspace (e.getD 0 0) (e.getD (m * f) 0) m)
      coords := b.coords.set i (centers (linspace (e.getD 0 0) (e.getD (m * f) 0) m))
      data := data
      mask := maskOf (b.shape.set i m).prod data } : BS A).shape = s1 ++ m :: s2 := by
      rw [← hset]
      simp only [BS.shape, List.map_set]
      rw [centers_length, linspace_length]; simp
    rw [hrs, hs2, hsh, ← hs1]
    refine ⟨vals, ?_, h2, h3⟩
    rw [List.getElem?_eq_getElem hkl', h1]

/-- The values of a variable with integer type are integers. -/
def IntCol (c : Col) : Prop := c.int = true → ∀ v ∈ c.vals, ∃ z : Int, v = .fin z

theorem store_float (v : Val) : store false v = v := rfl

theorem store_int (z : Int) : store true (.fin z) = .fin z := by
  unfold store
  simp

theorem nums_int (l : List Val) (h : ∀ v ∈ l, ∃ z : Int, v = .fin z) : ∃ z : Int, (nums l).sum = z := by
  induction l with
  | nil => exact ⟨0, by simp [nums_nil]⟩
  | cons v l ih =>
    obtain ⟨z, hz⟩ := ih fun x hx => h x (by simp [hx])
    obtain ⟨y, rfl⟩ := h v (by simp)
    exact ⟨y + z, by rw [nums_fin, List.sum_cons, hz]; push_cast; rfl⟩

theorem isOld_mem {shape : List Nat} {i f : Nat} {a : List Val} {js : List Nat} {l : List Val} (h : IsOld shape i f a js l) : ∀ v ∈ l, v ∈ a := by
  intro v hv
  obtain ⟨t, ht, rfl⟩ := List.mem_iff_getElem.mp hv
  have := (h.2 t (by rw [← h.1]; exact ht)).2
  rw [List.getElem?_eq_getElem ht] at this
  exact List.mem_of_getElem? this.symm

theorem wf_reindexed {b r : BS A} (hw : WF b) (i m : Nat) (a z : ℚ) (hd : r.dims = b.dims)
    (hs : r.shape = b.shape.set i m) (he : r.edges = b.edges.set i (linspace a z m)) (hc : r.coords = b.coords.set i (centers (linspace a z m)))
    (hm : r.mask = maskOf r.shape.prod r.data) (hsz : ∀ c ∈ r.data, c.vals.length = r.shape.prod) : WF r := by
  refine ⟨by rw [hd]; exact hw.nodup, by rw [he, hd, List.length_set]; exact hw.ledges, by rw [hc, hd, List.length_set]; exact hw.lcoords, ?_, hsz,
    by rw [hm]; simp [maskOf]⟩
  intro k e c hk1 hk2
  rw [he] at hk1
  rw [hc] at hk2
  by_cases hki : k = i
  · subst hki
    have hlt := (List.getElem?_eq_some_iff.mp hk1).1
    have hlt2 := (List.getElem?_eq_some_iff.mp hk2).1
    rw [List.length_set] at hlt hlt2
    rw [List.getElem?_set_self hlt] at hk1
    rw [List.getElem?_set_self hlt2] at hk2
    rw [← Option.some.inj hk1, ← Option.some.inj hk2, centers_length, linspace_length]; rfl
  · rw [List.getElem?_set_ne (Ne.symm hki)] at hk1 hk2
    exact hw.bins k e c hk1 hk2

/-- C45. `reindex` groups `f` consecutive bins of a dimension, whatever the shape: every new bin of a summed variable holds the sum of its valid
old bins, every new bin of another variable their mean, or with weights `Σ w x / Σ w`. Missing: integer variables that are averaged are
truncated (`reindex_truncates`), and the denominator of a weighted mean includes the weights of the invalid bins (`reindex_weights_nan`). -/
theorem reindex_partial (oldNumpy : Bool) (b : BS A) (hw : WF b) (dim : String) (spacing : ℚ) (weights : Weights) (force : Bool) (sum : List String)
    (i n f : Nat) (ha : ReindexArgs oldNumpy b dim spacing weights force sum i n f) (w : Option (Bool × List Val)) (hwt : getWeights b weights = .ok w)
    (hint : ∀ c ∈ b.data, IntCol c) :
    ∃ r : BS A, reindex oldNumpy b dim spacing weights force sum = .ok r ∧ WF r ∧ r.dims = b.dims ∧ r.attrs = b.attrs ∧ r.fts = b.fts ∧
      r.shape = b.shape.set i (n / f) ∧ r.data.length = b.data.length ∧
      ∀ (k : Nat) (c : Col), b.data[k]? = some c → ∃ c', r.data[k]? = some c' ∧ c'.name = c.name ∧ c'.int = c.int ∧
        ∀ js, Valid r.shape js → ∃ (l : List Val) (ws : Option (List Val)) (v : Val), IsOld b.shape i f c.vals js l ∧
          (w = none → ws = none) ∧ (∀ p, w = some p → ∃ wl, ws = some wl ∧ IsOld b.shape i f p.2 js wl) ∧
          (NoInf l → IsRebinned sum c.name l ws v) ∧ (c.int = false ∨ c.name ∈ sum → c'.vals[flat r.shape js]? = some v) := by
  obtain ⟨r, e, h1, h2, h3, h4, h5, h6, h7, h8, h9, h10, h11, h12⟩ := reindex_eq oldNumpy b hw dim spacing weights force sum i n f ha w hwt
  refine ⟨r, h1, ?_, h2, h3, h4, h5, h11, ?_⟩
  · refine wf_reindexed hw i (n / f) _ _ h2 h5 h8 h9 h10 ?_
    intro c' hc'
    obtain ⟨k, hk, rfl⟩ := List.mem_iff_getElem.mp hc'
    obtain ⟨vals, v1, v2, -⟩ := h12 k _ (List.getElem?_eq_getElem (by rw [← h11]; exact hk))
    rw [List.getElem?_eq_getElem hk, Option.some_inj] at v1
    rw [v1]; simpa using v2
  · intro k c hk
    obtain ⟨vals, v1, v2, v3⟩ := h12 k c hk
    refine ⟨_, v1, rfl, rfl, fun js hv => ?_⟩
    obtain ⟨l, ws, l1, l2, l3, l4⟩ := v3 js hv
    refine ⟨l, ws, _, l1, l2, l3, fun hl => newVal_spec _ _ i (b.shape.length - i - 1) _ _ hl, ?_⟩
    intro hor
    dsimp only
    rw [List.getElem?_map, l4, Option.map_some]
    cases hci : c.int with
    | false => rfl
    | true =>
      have hs : c.name ∈ sum := by rcases hor with h | h; · rw [hci] at h; cases h
                                   · exact h
      have hlz : ∀ v ∈ l, ∃ z : Int, v = .fin z := fun v hv => hint c (List.mem_of_getElem? hk) hci v (isOld_mem l1 v hv)
      have hni : NoInf l := fun v hv s => by obtain ⟨z, rfl⟩ := hlz v hv; simp
      obtain ⟨z, hz⟩ := nums_int l hlz
      rw [(newVal_spec sum c.name i (b.shape.length - i - 1) l ws hni).summed hs, hz, store_int]

/-- The number at a position of an array, zero if it is not valid. -/
def numAt (a : List Val) (o : Nat) : ℚ := ((a[o]?).bind Val.rat?).getD 0

theorem nums_sum (l : List Val) : (nums l).sum = ∑ t ∈ Finset.range l.length, numAt l t := by
  induction l with
  | nil => simp [nums_nil]
  | cons v l ih =>
    rw [List.length_cons, Finset.sum_range_succ']
    have h : ∀ t, numAt (v :: l) (t + 1) = numAt l t := fun t => by simp [numAt]
    simp only [h]
    rw [← ih]
    cases v with
    | fin q => rw [nums_fin, List.sum_cons, add_comm]; simp [numAt, Val.rat?]
    | inf s => rw [nums_inf]; simp [numAt, Val.rat?]
    | nan => rw [nums_nan]; simp [numAt, Val.rat?]

theorem sum_range_mul (F : Nat → ℚ) (a b : Nat) : ∑ o ∈ Finset.range (a * b), F o = ∑ p ∈ Finset.range a, ∑ q ∈ Finset.range b, F (p * b + q) := by
  induction a with
  | zero => simp
  | succ a ih => rw [Nat.succ_mul, Finset.sum_range_add, Finset.sum_range_succ, ih]

/-- The bin along axis `i` of a position of the array. -/
def binOf (shape : List Nat) (i o : Nat) : Nat := o / (shape.drop (i + 1)).prod % shape.getD i 1

/-- C45. The total of a summed variable over the bins kept does not change. -/
theorem reindex_total (oldNumpy : Bool) (b : BS A) (hw : WF b) (dim : String) (spacing : ℚ) (weights : Weights) (force : Bool) (sum : List String)
    (i n f : Nat) (ha : ReindexArgs oldNumpy b dim spacing weights force sum i n f)
    (hint : ∀ c ∈ b.data, IntCol c) :
    ∃ r : BS A, reindex oldNumpy b dim spacing weights force sum = .ok r ∧
      ∀ (k : Nat) (c : Col), b.data[k]? = some c → c.name ∈ sum → NoInf c.vals → ∃ c', r.data[k]? = some c' ∧
        ∑ o ∈ Finset.range r.shape.prod, numAt c'.vals o =
          ∑ o ∈ (Finset.range b.shape.prod).filter (fun o => binOf b.shape i o < n / f * f), numAt c.vals o := by
  obtain ⟨w, hwt, -⟩ := ha.weights
  obtain ⟨r, h1, -, -, -, -, h5, -, h7⟩ := reindex_partial oldNumpy b hw dim spacing weights force sum i n f ha w hwt hint
  refine ⟨r, h1, fun k c hk hs hni => ?_⟩
  obtain ⟨c', k1, -, -, k4⟩ := h7 k c hk
  refine ⟨c', k1, ?_⟩
  obtain ⟨hsl, hn⟩ := List.getElem?_eq_some_iff.mp ha.bins
  obtain ⟨s1, s2, hsh, hs1⟩ : ∃ s1 s2, b.shape = s1 ++ n :: s2 ∧ s1.length = i :=
    ⟨b.shape.take i, b.shape.drop (i + 1), by rw [← hn]; simp, by simp; omega⟩
  obtain ⟨m, hm⟩ : ∃ m, m = n / f := ⟨_, rfl⟩
  have hmn : m * f ≤ n := by rw [hm]; exact Nat.div_mul_le_self n f
  have hrs : r.shape = s1 ++ m :: s2 := by
    rw [h5, hsh, ← hs1, List.set_append_right _ _ le_rfl, hm]; simp
  have hbin : ∀ p j q, j < n → q < s2.prod → binOf b.shape i (p * (n * s2.prod) + (j * s2.prod + q)) = j := by
    intro p j q hj hq
    unfold binOf
    have e1 : b.shape.drop (i + 1) = s2 := by rw [hsh, ← hs1]; simp [List.drop_append]
    have e2 : b.shape.getD i 1 = n := by rw [List.getD_eq_getElem?_getD, ha.bins]; rfl
    rw [e1, e2]
    have e3 : p * (n * s2.prod) + (j * s2.prod + q) = q + s2.prod * (p * n + j) := by ring
    rw [e3, Nat.add_mul_div_left _ _ (by omega), Nat.div_eq_of_lt hq, zero_add, Nat.mul_comm, Nat.mul_add_mod, Nat.mod_eq_of_lt hj]
  have hval : ∀ p < s1.prod, ∀ j < m, ∀ q < s2.prod, numAt c'.vals (p * (m * s2.prod) + (j * s2.prod + q)) =
      ∑ t ∈ Finset.range f, numAt c.vals (p * (n * s2.prod) + ((j * f + t) * s2.prod + q)) := by
    intro p hp j hj q hq
    obtain ⟨j1, v1, f1⟩ := exists_flat s1 p hp
    obtain ⟨j2, v2, f2⟩ := exists_flat s2 q hq
    have hv : Valid r.shape (j1 ++ j :: j2) := by
      rw [hrs]; exact (valid_append _ _ _ _ v1.1).mpr ⟨v1, (valid_cons _ _ _ _).mpr ⟨hj, v2⟩⟩
    obtain ⟨l, ws, v, l1, -, -, l4, l5⟩ := k4 _ hv
    have hnl : NoInf l := fun x hx => hni x (isOld_mem l1 x hx)
    have hv' := l5 (Or.inr hs)
    rw [(l4 hnl).summed hs] at hv'
    have hfl : flat r.shape (j1 ++ j :: j2) = p * (m * s2.prod) + (j * s2.prod + q) := by
      rw [hrs, flat_append _ _ _ _ v1.1, List.prod_cons, f1]; simp only [flat, f2]
    rw [← hfl]
    conv_lhs => unfold numAt
    rw [hv']
    simp only [Option.bind_some, Val.rat?, Option.getD_some]
    rw [nums_sum, l1.1]
    refine Finset.sum_congr rfl fun t ht => ?_
    obtain ⟨-, g2⟩ := l1.2 t (by simpa using ht)
    have ej : (j1 ++ j :: j2).getD i 0 = j := by rw [← hs1, ← v1.1]; simp [List.getD_eq_getElem?_getD]
    have es : ∀ x, (j1 ++ j :: j2).set i x = j1 ++ x :: j2 := by
      intro x; rw [List.set_append_right _ _ (by have := v1.1; omega), ← hs1, v1.1]; simp
    rw [ej, es, hsh, flat_append _ _ _ _ v1.1, List.prod_cons, f1] at g2
    simp only [flat, f2] at g2
    unfold numAt
    rw [g2]
  rw [hrs, hsh, Finset.sum_filter, List.prod_append, List.prod_cons, List.prod_append, List.prod_cons, sum_range_mul, sum_range_mul]
  refine Finset.sum_congr rfl fun p hp => ?_
  rw [sum_range_mul, sum_range_mul]
  have hp' : p < s1.prod := by simpa using hp
  rw [Finset.sum_congr rfl fun j hj => Finset.sum_congr rfl fun q hq => hval p hp' j (by simpa using hj) q (by simpa using hq)]
  obtain ⟨x, rfl⟩ : ∃ x, n = m * f + x := ⟨n - m * f, by omega⟩
  rw [Finset.sum_range_add _ (m * f) x]
  have hrest : ∑ j ∈ Finset.range x, ∑ q ∈ Finset.range s2.prod,
      (if binOf (s1 ++ (m * f + x) :: s2) i (p * ((m * f + x) * s2.prod) + ((m * f + j) * s2.prod + q)) < (m * f + x) / f * f then
        numAt c.vals (p * ((m * f + x) * s2.prod) + ((m * f + j) * s2.prod + q)) else 0) = 0 := by
    refine Finset.sum_eq_zero fun j hj => Finset.sum_eq_zero fun q hq => ?_
    rw [← hsh, hbin p _ q (by simp at hj; omega) (by simpa using hq), ← hm, if_neg (by omega)]
  rw [hrest, add_zero, sum_range_mul]
  refine Finset.sum_congr rfl fun j hj => ?_
  rw [Finset.sum_comm]
  refine Finset.sum_congr rfl fun t ht => Finset.sum_congr rfl fun q hq => ?_
  have hjt : j * f + t < m * f := by
    simp only [Finset.mem_range] at hj ht
    calc j * f + t < j * f + f := by omega
      _ = (j + 1) * f := by ring
      _ ≤ m * f := Nat.mul_le_mul_right _ hj
  rw [← hsh, hbin p _ q (by omega) (by simpa using hq), ← hm, if_pos hjt]

end NBK.Binned
