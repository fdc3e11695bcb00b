import Verif.Binned.RebinProps
import Verif.Binned.GetProps

/-!
# Edges of the new bins (C56), averages over a dimension (C57), and where re-binning is wrong (C45)
-/
set_option linter.unusedSimpArgs false
namespace NBK.Binned
variable {A : Type}

/-- Bins of equal width. -/
def EvenEdges (e : List ℚ) : Prop := ∃ a h : ℚ, 0 < h ∧ ∀ (k : Nat) (x : ℚ), e[k]? = some x → x = a + k * h

/-- C56. For bins of equal width every new edge is the edge of the old bins merged. Missing: bins of different widths are accepted, and
labelled with edges that are not theirs (`reindex_uneven`). -/
theorem reindex_edges_partial (oldNumpy : Bool) (b : BS A) (hw : WF b) (dim : String) (spacing : ℚ) (weights : Weights) (force : Bool) (sum : List String)
    (i n f : Nat) (ha : ReindexArgs oldNumpy b dim spacing weights force sum i n f) (e : List ℚ) (he : b.edges[i]? = some e) (hev : EvenEdges e) :
    ∃ (r : BS A) (e' : List ℚ), reindex oldNumpy b dim spacing weights force sum = .ok r ∧ r.edges[i]? = some e' ∧ e'.length = n / f + 1 ∧
      (∀ k ≤ n / f, e'[k]? = e[k * f]?) ∧ (∀ k, k ≠ i → r.edges[k]? = b.edges[k]?) ∧ r.coords[i]? = some (centers e') := by
  obtain ⟨w, hwt, -⟩ := ha.weights
  obtain ⟨r, e0, h1, -, -, -, -, h6, h7, h8, h9, -⟩ := reindex_eq oldNumpy b hw dim spacing weights force sum i n f ha w hwt
  rw [he] at h6
  obtain rfl := Option.some.inj h6
  have hil := (List.getElem?_eq_some_iff.mp he).1
  have hcl : i < b.coords.length := by rw [hw.lcoords, ← hw.ledges]; exact hil
  have h2 := ha.two
  have hmp : 0 < n / f := Nat.div_pos ha.le (by omega)
  have hmn : n / f * f ≤ n := Nat.div_mul_le_self n f
  refine ⟨r, _, h1, by rw [h8, List.getElem?_set_self hil], linspace_length _ _ _, ?_, fun k hk => by rw [h8, List.getElem?_set_ne (Ne.symm hk)],
    by rw [h9, List.getElem?_set_self hcl]⟩
  generalize n / f = m at hmp hmn
  obtain ⟨a, h, hh, hx⟩ := hev
  intro k hk
  have hkf : k * f ≤ m * f := Nat.mul_le_mul_right _ hk
  have get : ∀ j ≤ n, e[j]? = some (a + j * h) := by
    intro j hj
    have hlt : j < e.length := by omega
    rw [List.getElem?_eq_getElem hlt, hx j _ (List.getElem?_eq_getElem hlt)]
  have g0 : e.getD 0 0 = a := by rw [List.getD_eq_getElem?_getD, get 0 (by omega)]; simp
  have gm : e.getD (m * f) 0 = a + (m * f : Nat) * h := by rw [List.getD_eq_getElem?_getD, get _ hmn]; rfl
  rw [get _ (by omega), g0, gm, linspace, List.getElem?_map, List.getElem?_range (by omega), Option.map_some, Option.some_inj]
  by_cases h0 : k = 0
  · subst h0; simp
  · rw [if_neg h0]
    have : (m : ℚ) ≠ 0 := by exact_mod_cast (by omega : m ≠ 0)
    push_cast
    field_simp
    ring

theorem sorted_range (l : List Nat) (n : Nat) (h : l.Pairwise (· < ·)) (hm : ∀ x, x ∈ l ↔ x < n) : l = List.range n := by
  apply List.Perm.eq_of_pairwise (le := (· < ·)) _ h List.pairwise_lt_range
  · rw [List.perm_ext_iff_of_nodup (h.imp fun h => Nat.ne_of_lt h) List.nodup_range]
    intro a; rw [hm, List.mem_range]
  · intro a b _ _ h1 h2; omega

/-- C57. `average` over a dimension of `n` bins, when the spacing fits the bins: the dimension is gone and the value at an index of the other
dimensions is the sum or the mean of all `n` bins. Missing: bins of different widths (`average_uneven`), a dimension with a single bin
(`average_single`), a single dimension (`average_1d`). -/
theorem average_partial (oldNumpy : Bool) (world : World) (b : BS A) (hw : WF b) (dim : String) (weights : Weights) (force : Bool) (sum : List String)
    (i n : Nat) (e : List ℚ) (he : b.edges[i]? = some e)
    (ha : ReindexArgs oldNumpy b dim (e.getLastD 0 - e.getD 0 0) weights force (sum ++ b.fts) i n n) (hd : 2 ≤ b.dims.length)
    (w : Option (Bool × List Val)) (hwt : getWeights b weights = .ok w) (hint : ∀ c ∈ b.data, IntCol c) :
    ∃ r : BS A, (averageCall oldNumpy world b dim weights force (some sum)).2.2 = .ok r ∧ WF r ∧ r.dims = b.dims.eraseIdx i ∧
      r.edges = b.edges.eraseIdx i ∧ r.shape = b.shape.eraseIdx i ∧ r.attrs = b.attrs ∧ r.fts = b.fts ∧ r.data.length = b.data.length ∧
      ∀ (k : Nat) (c : Col), b.data[k]? = some c → ∃ c', r.data[k]? = some c' ∧ c'.name = c.name ∧ c'.int = c.int ∧
        ∀ j1 j2, j1.length = i → Valid r.shape (j1 ++ j2) → ∃ (l : List Val) (ws : Option (List Val)) (v : Val),
          l.length = n ∧ (∀ t < n, l[t]? = c.vals[flat b.shape (j1 ++ t :: j2)]?) ∧ (w = none → ws = none) ∧
          (∀ p, w = some p → ∃ wl, ws = some wl ∧ wl.length = n ∧ ∀ t < n, wl[t]? = p.2[flat b.shape (j1 ++ t :: j2)]?) ∧
          (NoInf l → IsRebinned (sum ++ b.fts) c.name l ws v) ∧
          (c.int = false ∨ c.name ∈ sum ++ b.fts → c'.vals[flat r.shape (j1 ++ j2)]? = some v) := by
  obtain ⟨hil, hdim⟩ := List.getElem?_eq_some_iff.mp ha.dim
  have hmem : dim ∈ b.dims := List.mem_of_getElem? ha.dim
  have hidx : b.dims.idxOf dim = i := (idxOf_iff b.dims hw.nodup dim hmem i).mpr ha.dim
  have hn2 := ha.two
  obtain ⟨t, t1, t2, t3, t4, t5, t6, t7, t8⟩ := reindex_partial oldNumpy b hw dim _ weights force _ i n n ha w hwt hint
  obtain ⟨t', e0, u1, -, -, -, -, -, -, u8, u9, -⟩ := reindex_eq oldNumpy b hw dim _ weights force _ i n n ha w hwt
  rw [t1] at u1
  obtain rfl := Except.ok.inj u1
  have hdiv : n / n = 1 := Nat.div_self (by omega)
  rw [hdiv] at t6 u8 u9
  have hsl : b.shape.length = b.dims.length := by rw [shape_length, hw.lcoords]
  have htl : t.shape.length = t.dims.length := by rw [shape_length, t2.lcoords]
  have hti : t.shape[i]? = some 1 := by rw [t6, List.getElem?_set_self (by omega)]
  have htd : t.dims[i]? = some dim := by rw [t3]; exact ha.dim
  have htidx : t.dims.idxOf dim = i := by rw [t3]; exact hidx
  -- the selection of the only bin
  have hta : TakeArgs t [] [(dim, .ints [((0 : Nat) : Int)])] := by
    refine ⟨by simp, fun s hs => by rw [List.mem_singleton.mp hs, t3]; exact hmem, ?_⟩
    intro s hs ax hax
    rw [List.mem_singleton.mp hs] at hax ⊢
    have hax' : ax = i := by rw [← htidx]; exact ((idxOf_iff t.dims t2.nodup dim (by rw [t3]; exact hmem) ax).mpr hax).symm
    subst hax'
    intro z hz
    rw [List.getD_eq_getElem?_getD, hti]
    simp at hz ⊢; omega
  obtain ⟨s, idx, s1, s2, s3, s4, s5, -⟩ := take_partial t t2 [] [(dim, .ints [((0 : Nat) : Int)])] hta
  have hrange : ∀ (ax : Nat) (l : List Nat), idx[ax]? = some l → l = List.range (t.shape.getD ax 0) := by
    intro ax l hl
    obtain ⟨p1, p2⟩ := s5 ax l hl
    refine sorted_range _ _ p1 fun x => ?_
    rw [p2]
    refine ⟨fun h => h.1, fun h => ⟨h, by simp, fun s hs hax => ?_⟩⟩
    rw [List.mem_singleton.mp hs] at hax ⊢
    have hax' : ax = i := by rw [← htidx]; exact ((idxOf_iff t.dims t2.nodup dim (by rw [t3]; exact hmem) ax).mpr hax).symm
    subst hax'
    rw [List.getD_eq_getElem?_getD, hti] at h
    refine ⟨0, by simp, Or.inl ?_⟩
    simp at h; omega
  have hidxg : ∀ ax < t.shape.length, idx.getD ax [] = List.range (t.shape.getD ax 0) := by
    intro ax hax
    rw [List.getD_eq_getElem _ _ (by omega)]
    exact hrange ax _ (List.getElem?_eq_getElem (by omega))
  have hss : s.shape = t.shape := by
    rw [s3.shape]
    apply List.ext_getElem
    · simp; omega
    · intro ax g1 g2
      have h1 := hrange ax _ (List.getElem?_eq_getElem (by simpa using g1))
      rw [List.getElem_map, h1, List.length_range, List.getD_eq_getElem _ _ g2]
  have hsrc : ∀ js, Valid s.shape js → srcIdx idx js = js := by
    intro js hv
    rw [hss] at hv
    unfold srcIdx
    apply List.ext_getElem
    · simp
    · intro k g1 g2
      have hk : k < t.shape.length := by rw [← hv.1]; exact g2
      have h1 := hv.2 k hk
      rw [List.getElem_map, List.getElem_range, hidxg k hk, List.getD_eq_getElem _ _ (by simpa using h1), List.getElem_range,
        List.getD_eq_getElem _ _ g2]
  -- squeezing
  have hsd : s.dims = b.dims := s3.dims.trans t3
  have hsq := squeeze_eq s s2 dim i (by rw [hsd]; exact ha.dim) (by rw [hss]; exact hti) (by rw [hsd]; omega)
  have hkeep1 : ∀ (k : Nat) (d : String), s.dims[k]? = some d → (decide (d ≠ dim)) = false → s.shape[k]? = some 1 := by
    intro k d hk hd
    have : d = dim := by simpa using hd
    subst this
    have : k = i := by rw [← hidx]; exact ((idxOf_iff b.dims hw.nodup d hmem k).mpr (by rw [← hsd]; exact hk)).symm
    rw [this, hss]; exact hti
  have hkb : ∀ {α : Type} (l : List α), l.length = b.dims.length → keepBy (fun x => decide (x ≠ dim)) s.dims l = l.eraseIdx i := by
    intro α l hl
    rw [hsd, ← hidx, keepBy_erase b.dims hw.nodup l hl dim hmem]
  have hslen : s.shape.length = b.dims.length := by rw [hss, htl, t3]
  have hes : s.edges.eraseIdx i = b.edges.eraseIdx i := by
    have hel : s.edges.length = b.edges.length := by rw [s2.ledges, hsd, hw.ledges]
    have : ∀ ax, ax ≠ i → s.edges[ax]? = b.edges[ax]? := by
      intro ax hax
      by_cases hlt : ax < b.edges.length
      · have hbd : ax < b.dims.length := by rw [← hw.ledges]; exact hlt
        have hidl : ax < idx.length := by rw [s4, t3]; exact hbd
        have hte : t.edges[ax]? = b.edges[ax]? := by rw [u8, List.getElem?_set_ne (Ne.symm hax)]
        obtain ⟨e', q1, q2, q3⟩ := s3.edges ax _ b.edges[ax] trivial (List.getElem?_eq_getElem hidl) (by
          rw [hte]; exact List.getElem?_eq_getElem hlt)
        have hr := hrange ax _ (List.getElem?_eq_getElem hidl)
        rw [hr] at q2 q3
        rw [q1, List.getElem?_eq_getElem hlt, Option.some_inj]
        have hcl : ax < b.coords.length := by rw [hw.lcoords]; exact hbd
        have hbins := hw.bins ax _ _ (List.getElem?_eq_getElem hlt) (List.getElem?_eq_getElem hcl)
        have htsh : t.shape.getD ax 0 = (b.coords[ax]).length := by
          rw [t6, List.getD_eq_getElem?_getD, List.getElem?_set_ne (Ne.symm hax)]; simp [BS.shape, hcl]
        rw [htsh] at q2 q3
        have hpos : 0 < (b.coords[ax]).length := ha.pos _ (by
          have : ax < b.shape.length := by omega
          have h := List.getElem_mem this
          simpa [BS.shape] using h)
        generalize b.edges[ax] = E at q3 hbins
        generalize (b.coords[ax]).length = N at q2 q3 hbins hpos
        apply List.ext_getElem?
        intro k
        by_cases hk : k < N
        · exact q3.1 k k (by rw [List.getElem?_range hk])
        · by_cases hk2 : k = N
          · have := q3.2 (N - 1) (by rw [List.getLast?_range, if_neg (by omega)])
            rw [List.length_range, Nat.sub_add_cancel (by omega)] at this
            rw [hk2]; exact this
          · rw [List.getElem?_eq_none (by simp at q2; omega), List.getElem?_eq_none (by omega)]
      · rw [List.getElem?_eq_none (by omega), List.getElem?_eq_none (by omega)]
    apply List.ext_getElem?
    intro k
    rw [List.getElem?_eraseIdx, List.getElem?_eraseIdx]
    split
    · exact this k (by omega)
    · exact this (k + 1) (by omega)
  refine ⟨s.keep fun x => decide (x ≠ dim), ?_, keep_wf s s2 _ hkeep1, ?_, ?_, ?_, ?_, ?_, ?_, ?_⟩
  · unfold averageCall
    rw [if_neg (by simpa using hmem)]
    dsimp only
    rw [hidx]
    have hed : b.edges.getD i [] = e := by rw [List.getD_eq_getElem?_getD, he]; rfl
    rw [hed]
    unfold reindexCall
    rw [if_neg (by simpa using hmem)]
    simp only [t1, bind, Except.bind, pure, Except.pure]
    obtain ⟨c, hc⟩ : ∃ c, t.coords[i]? = some c := ⟨_, List.getElem?_eq_getElem (by rw [t2.lcoords, t3]; exact hil)⟩
    have hcl : c.length = 1 := by
      have : t.shape[i]? = some c.length := by simp [BS.shape, hc]
      rw [hti] at this; exact (Option.some.inj this).symm
    have hcd : t.coords.getD (t.dims.idxOf dim) [] = c := by rw [htidx, List.getD_eq_getElem?_getD, hc]; rfl
    rw [hcd]
    have hgi : getIndex c (c.getD 0 0) = .ok 0 := by
      match c, hcl with
      | [x], _ => simp [getIndex]
    rw [hgi]
    dsimp only
    rw [if_neg (by rw [t3]; omega)]
    rw [s1]
    exact hsq
  · simp only [BS.keep]; rw [hkb s.dims (by rw [hsd]), hsd]
  · simp only [BS.keep]; rw [hkb s.edges (by rw [s2.ledges, hsd]), hes]
  · rw [keep_shape, hkb s.shape hslen, hss, t6, List.eraseIdx_set_eq]
  · exact s3.attrs.trans t4
  · exact s3.fts.trans t5
  · exact s3.ndata.trans t7
  · intro k c hk
    obtain ⟨ct, k1, k2, k3, k4⟩ := t8 k c hk
    obtain ⟨c', m1, m2, m3, m4⟩ := s3.data k ct k1
    refine ⟨c', m1, m2.trans k2, m3.trans k3, fun j1 j2 hj hv => ?_⟩
    have hv1 : Valid t.shape (j1 ++ 0 :: j2) := by
      rw [keep_shape, hkb s.shape hslen, hss] at hv
      have hli : i < t.shape.length := by rw [htl, t3]; exact hil
      have hts := split_at t.shape i hli
      have hone : t.shape[i] = 1 := by
        have := hti; rw [List.getElem?_eq_getElem hli] at this; exact Option.some.inj this
      rw [List.eraseIdx_eq_take_drop_succ] at hv
      have hjl : j1.length = (t.shape.take i).length := by simp; omega
      obtain ⟨y1, y2⟩ := (valid_append _ _ _ _ hjl).mp hv
      rw [hts, hone]
      exact (valid_append _ _ _ _ hjl).mpr ⟨y1, (valid_cons _ _ _ _).mpr ⟨by omega, y2⟩⟩
    have hv2 : Valid s.shape (j1 ++ 0 :: j2) := by rw [hss]; exact hv1
    obtain ⟨z1, z2, z3⟩ := flat_keepBy (fun x => decide (x ≠ dim)) s.dims s.shape (j1 ++ 0 :: j2) (by rw [hslen, hsd]) hv2 hkeep1
    have hje : keepBy (fun x => decide (x ≠ dim)) s.dims (j1 ++ 0 :: j2) = j1 ++ j2 := by
      rw [hkb _ (by rw [hv2.1, hslen]), ← hj]
      simp [List.eraseIdx_append_of_length_le]
    rw [hje] at z2
    obtain ⟨l, ws, v, l1, l2, l3, l4, l5⟩ := k4 _ hv1
    have eset : ∀ x, (j1 ++ 0 :: j2).set i x = j1 ++ x :: j2 := by
      intro x; rw [List.set_append_right _ _ (by omega), hj]; simp
    have eget : (j1 ++ 0 :: j2).getD i 0 = 0 := by rw [← hj]; simp [List.getD_eq_getElem?_getD]
    have hold : ∀ (a l : List Val), IsOld b.shape i n a (j1 ++ 0 :: j2) l → l.length = n ∧ ∀ t < n, l[t]? = a[flat b.shape (j1 ++ t :: j2)]? := by
      intro a l h
      refine ⟨h.1, fun t ht => ?_⟩
      have := (h.2 t ht).2
      rw [eget, eset, Nat.zero_mul, Nat.zero_add] at this
      exact this
    refine ⟨l, ws, v, (hold _ _ l1).1, (hold _ _ l1).2, l2, ?_, l4, ?_⟩
    · intro p hp
      obtain ⟨wl, q1, q2⟩ := l3 p hp
      exact ⟨wl, q1, hold _ _ q2⟩
    · intro hor
      have hl5 := l5 hor
      obtain ⟨o1, x, o2, o3⟩ := m4 _ hv2
      rw [hsrc _ hv2] at o1 o2
      rw [hl5] at o2
      rw [keep_shape, z2, o3, Option.some.inj o2]

theorem roundEven_int (z : Int) : roundEven z = z := by
  unfold roundEven
  have : (z : ℚ).floor = z := Rat.floor_intCast z
  simp [this]

/-- With bins of equal width and the coordinates at the centers the width of the new bins may be any multiple of that of the old ones. -/
theorem even_factor (e cs : List ℚ) (h : EvenEdges e) (hc : cs = centers e) (f : Nat) (c0 c1 : ℚ) (ct : List ℚ) (hcs : cs = c0 :: c1 :: ct) :
    roundEven ((e.getD f 0 - e.getD 0 0) / (c1 - c0)) = f ∨ e.length ≤ f := by
  by_cases hf : e.length ≤ f
  · exact Or.inr hf
  left
  obtain ⟨a, h, hh, hx⟩ := h
  have hel : 3 ≤ e.length := by
    have := congrArg List.length hcs
    rw [hc, centers_length] at this
    simp at this; omega
  have get : ∀ j, j < e.length → e[j]? = some (a + j * h) := by
    intro j hlt
    rw [List.getElem?_eq_getElem hlt, hx j _ (List.getElem?_eq_getElem hlt)]
  have g : ∀ j, j < e.length → e.getD j 0 = a + j * h := fun j hj => by rw [List.getD_eq_getElem?_getD, get j hj]; rfl
  match e, hel with
  | x :: y :: z :: l, _ =>
    have hx0 : x = a := by have := get 0 (by simp); simpa using this
    have hx1 : y = a + h := by have := get 1 (by simp); simpa using this
    have hx2 : z = a + 2 * h := by have := get 2 (by simp); simpa using this
    rw [hcs] at hc
    simp only [centers, List.tail_cons, List.zipWith_cons_cons, List.cons.injEq] at hc
    have hd : c1 - c0 = h := by rw [hc.1, hc.2.1, hx0, hx1, hx2]; ring
    rw [hd, g f (by omega), g 0 (by simp)]
    have : (a + (f : ℚ) * h - (a + ((0 : Nat) : ℚ) * h)) / h = ((f : Int) : ℚ) := by
      have : h ≠ 0 := ne_of_gt hh
      push_cast
      field_simp
      ring
    rw [this, roundEven_int]

/-- Three dimensions, the second with 5 bins of width 2, two of them merged and the last one left over. -/
def tall : BS Unit := ⟨["k", "r", "mu"], [[0, 1, 2], [0, 2, 4, 6, 8, 10], [0, 1]], [[1/2, 3/2], [1, 3, 5, 7, 9], [1/2]],
  [⟨"modes", true, [.fin 1, .fin 2, .fin 3, .fin 4, .fin 5, .fin 6, .fin 7, .fin 8, .fin 9, .fin 10]⟩,
   ⟨"power", false, [.fin 1, .nan, .fin 3, .fin 4, .fin 5, .nan, .nan, .fin 8, .fin 10, .fin 11]⟩,
   ⟨"w", false, [.fin 1, .fin 2, .fin 1, .fin 1, .fin 1, .fin 1, .fin 1, .fin 3, .fin 1, .fin 1]⟩],
  [false, true, false, false, false, true, true, false, false, false], (), ["modes"]⟩

theorem tall_wf : WF tall := by
  refine ⟨by decide, rfl, rfl, ?_, ?_, rfl⟩
  · intro i e c he hc
    match i, he, hc with
    | 0, he, hc => obtain rfl := Option.some.inj he; obtain rfl := Option.some.inj hc; rfl
    | 1, he, hc => obtain rfl := Option.some.inj he; obtain rfl := Option.some.inj hc; rfl
    | 2, he, hc => obtain rfl := Option.some.inj he; obtain rfl := Option.some.inj hc; rfl
  · intro c hc
    simp only [tall, List.mem_cons, List.not_mem_nil, or_false] at hc
    rcases hc with rfl | rfl | rfl <;> rfl

theorem tall_args (weights : Weights) (hwt : weights = .none ∨ weights = .name "w") : ReindexArgs true tall "r" 4 weights true ["modes"] 1 5 2 := by
  refine ⟨rfl, rfl, by omega, by omega, ?_, nofun, ?_, ?_⟩
  · intro c0 c1 cs h
    have h' := Option.some.inj h
    simp only [List.cons.injEq] at h'
    rw [← h'.1, ← h'.2.1]
    decide +kernel
  · intro d hd
    simp [BS.shape, tall] at hd
    omega
  · rcases hwt with rfl | rfl
    · exact ⟨none, rfl, nofun⟩
    · refine ⟨some (false, [.fin 1, .fin 2, .fin 1, .fin 1, .fin 1, .fin 1, .fin 1, .fin 3, .fin 1, .fin 1]), by decide +kernel, ?_⟩
      intro p hp
      obtain rfl := Option.some.inj hp
      exact ⟨rfl, fun _ => rfl, fun _ _ _ => by simp⟩

/-- `tall.reindex("r", 4)`: the modes are summed, the power is averaged over the valid bins. -/
example : ∃ r, reindex true tall "r" 4 .none true ["modes"] = .ok r ∧ r.shape = [2, 2, 1] ∧ r.edges[1]? = some [0, 4, 8] ∧
    r.data.take 2 = [⟨"modes", true, [.fin 3, .fin 7, .fin 13, .fin 17]⟩, ⟨"power", false, [.fin 1, .fin (7/2), .nan, .fin 9]⟩] := by
  refine ⟨⟨["k", "r", "mu"], [[0, 1, 2], [0, 4, 8], [0, 1]], [[1/2, 3/2], [2, 6], [1/2]],
  [⟨"modes", true, [.fin 3, .fin 7, .fin 13, .fin 17]⟩,
   ⟨"power", false, [.fin 1, .fin (7/2), .nan, .fin 9]⟩,
   ⟨"w", false, [.fin (3/2), .fin 1, .fin 1, .fin 2]⟩],
  [false, false, true, false], (), ["modes"]⟩, ?_, ?_, ?_, ?_⟩ <;> decide +kernel

/-- The conditions of `reindex_partial`, `reindex_total` and `reindex_edges_partial` hold for it. -/
example : ReindexArgs true tall "r" 4 (.name "w") true ["modes"] 1 5 2 ∧ (∀ c ∈ tall.data, IntCol c) ∧ EvenEdges [0, 2, 4, 6, 8, 10] := by
  refine ⟨tall_args _ (Or.inr rfl), ?_, 0, 2, by norm_num, ?_⟩
  · intro c hc hi v hv
    simp only [tall, List.mem_cons, List.not_mem_nil, or_false] at hc
    rcases hc with rfl | rfl | rfl
    · simp only [List.mem_cons, List.not_mem_nil, or_false] at hv
      rcases hv with rfl | rfl | rfl | rfl | rfl | rfl | rfl | rfl | rfl | rfl
      exacts [⟨1, rfl⟩, ⟨2, rfl⟩, ⟨3, rfl⟩, ⟨4, rfl⟩, ⟨5, rfl⟩, ⟨6, rfl⟩, ⟨7, rfl⟩, ⟨8, rfl⟩, ⟨9, rfl⟩, ⟨10, rfl⟩]
    · cases hi
    · cases hi
  · intro k x hk
    have hlt : k < 6 := (List.getElem?_eq_some_iff.mp hk).1
    match k, hlt, hk with
    | 0, _, hk => simp at hk; rw [← hk]; norm_num
    | 1, _, hk => simp at hk; rw [← hk]; norm_num
    | 2, _, hk => simp at hk; rw [← hk]; norm_num
    | 3, _, hk => simp at hk; rw [← hk]; norm_num
    | 4, _, hk => simp at hk; rw [← hk]; norm_num
    | 5, _, hk => simp at hk; rw [← hk]; norm_num

/-- The negation of C45 for weights: the mean of an invalid bin and one with the value 9, with weights 1 and 3 each, comes out as 27/4 instead of 9. -/
theorem reindex_weights_nan :
    let b : BS Unit := ⟨["k"], [[0, 1, 2]], [[1/2, 3/2]], [⟨"power", false, [.nan, .fin 9]⟩, ⟨"w", false, [.fin 1, .fin 3]⟩], [true, false], (), []⟩
    ∃ r, reindex true b "k" 2 (.name "w") true [] = .ok r ∧ r.data[0]? = some ⟨"power", false, [.fin (27/4)]⟩ := by
  refine ⟨⟨["k"], [[0, 2]], [[1]], [⟨"power", false, [.fin (27/4)]⟩, ⟨"w", false, [.fin (5/2)]⟩], [false], (), []⟩, ?_, ?_⟩ <;> decide +kernel

/-- The negation of C45 for integers: the mean of 1 and 2 comes out as 1. -/
theorem reindex_truncates :
    let b : BS Unit := ⟨["k"], [[0, 1, 2]], [[1/2, 3/2]], [⟨"modes", true, [.fin 1, .fin 2]⟩], [false, false], (), []⟩
    reindex true b "k" 2 .none true [] = .ok ⟨["k"], [[0, 2]], [[1]], [⟨"modes", true, [.fin 1]⟩], [false], (), []⟩ := by
  decide +kernel

/-- Four bins of different widths. -/
def uneven : BS Unit := ⟨["k", "mu"], [[0, 1, 2, 10, 11], [0, 1]], [[1/2, 3/2, 6, 21/2], [1/2]], [⟨"power", false, [.fin 1, .fin 2, .fin 3, .fin 4]⟩],
  [false, false, false, false], (), []⟩

/-- The negation of C56: the value of the bins [0, 1] and [1, 2] is labelled [0, 11/2]. -/
theorem reindex_uneven :
    (∃ r, reindex true uneven "k" 2 .none true [] = .ok r ∧ r.edges[0]? = some [0, 11/2, 11] ∧
      r.data = [⟨"power", false, [.fin (3/2), .fin (7/2)]⟩]) ∧ (11/2 : ℚ) ∉ ([0, 1, 2, 10, 11] : List ℚ) := by
  refine ⟨⟨⟨["k", "mu"], [[0, 11/2, 11], [0, 1]], [[11/4, 33/4], [1/2]], [⟨"power", false, [.fin (3/2), .fin (7/2)]⟩], [false, false], (), []⟩,
    ?_, ?_, ?_⟩, ?_⟩ <;> decide +kernel

/-- Three bins of different widths. -/
def uneven3 : BS Unit := ⟨["k", "mu"], [[0, 4, 5, 6], [0, 1]], [[2, 9/2, 11/2], [1/2]], [⟨"power", false, [.fin 1, .fin 2, .fin 30]⟩],
  [false, false, false], (), []⟩

/-- The negation of C57 for bins of different widths: the average of the values 1, 2, 30 of `uneven3` is 3/2, since the last bin is dropped
without notice; and for `uneven` the average fails. -/
theorem average_uneven :
    (averageCall true ⟨[]⟩ uneven3 "k" .none true (some [])).2.2 =
      .ok ⟨["mu"], [[0, 1]], [[1/2]], [⟨"power", false, [.fin (3/2)]⟩], [false], (), []⟩ ∧
    (averageCall true ⟨[]⟩ uneven "k" .none true (some [])).2.2 = .error .zeroDivision := by
  constructor <;> decide +kernel

/-- The average over a dimension with a single bin always fails. -/
theorem average_single (oldNumpy : Bool) (world : World) (b : BS A) (hw : WF b) (dim : String) (weights : Weights) (force : Bool) (arg : Option (List String))
    (i : Nat) (hd : b.dims[i]? = some dim) (h1 : b.shape[i]? = some 1) :
    (averageCall oldNumpy world b dim weights force arg).2.2 = .error .indexError := by
  have hmem : dim ∈ b.dims := List.mem_of_getElem? hd
  have hidx : b.dims.idxOf dim = i := (idxOf_iff b.dims hw.nodup dim hmem i).mpr hd
  have hil := (List.getElem?_eq_some_iff.mp hd).1
  obtain ⟨c, hc⟩ : ∃ c, b.coords[i]? = some c := ⟨_, List.getElem?_eq_getElem (by rw [hw.lcoords]; exact hil)⟩
  have hcl : c.length = 1 := by
    have : b.shape[i]? = some c.length := by simp [BS.shape, hc]
    rw [h1] at this; exact (Option.some.inj this).symm
  have hcd : b.coords.getD i [] = c := by rw [List.getD_eq_getElem?_getD, hc]; rfl
  have hre : ∀ sp sum, reindex oldNumpy b dim sp weights force sum = .error .indexError := by
    intro sp sum
    unfold reindex
    dsimp only
    rw [hidx, if_neg (by omega)]
    simp only [bind, Except.bind, pure, Except.pure]
    rw [hcd, hcl]
    rfl
  unfold averageCall
  rw [if_neg (by simpa using hmem)]
  dsimp only
  unfold reindexCall
  rw [if_neg (by simpa using hmem)]
  cases arg <;> simp only [hre, bind, Except.bind]

/-- What `reindex` returns, whenever it returns. -/
theorem reindex_form {oldNumpy : Bool} {b : BS A} {dim : String} {sp : ℚ} {weights : Weights} {force : Bool} {sum : List String} {t : BS A}
    (hr : reindex oldNumpy b dim sp weights force sum = .ok t) : ∃ (i : Nat) (x y : ℚ) (m : Nat) (data : List Col),
      t = { b with edges := b.edges.set i (linspace x y m), coords := b.coords.set i (centers (linspace x y m)), data := data,
                   mask := maskOf (b.shape.set i m).prod data } := by
  unfold reindex at hr
  simp only [bind, Except.bind, pure, Except.pure, throw, throwThe, MonadExceptOf.throw] at hr
  repeat' (split at hr)
  all_goals first | (cases hr; done) | exact ⟨_, _, _, _, _, (Except.ok.inj hr).symm⟩

/-- The average of a statistic with a single dimension never succeeds. -/
theorem average_1d (oldNumpy : Bool) (world : World) (b : BS A) (hw : WF b) (dim : String) (weights : Weights) (force : Bool) (arg : Option (List String))
    (h1 : b.dims = [dim]) (r : BS A) : (averageCall oldNumpy world b dim weights force arg).2.2 ≠ .ok r := by
  intro h
  unfold averageCall at h
  rw [if_neg (by simp [h1])] at h
  simp only [bind, Except.bind, pure, Except.pure] at h
  split at h
  · cases h
  · rename_i t ht
    have htd : t.dims = b.dims := by
      unfold reindexCall at ht
      rw [if_neg (by simp [h1])] at ht
      have key : ∀ sp sum, reindex oldNumpy b dim sp weights force sum = .ok t → t.dims = b.dims := by
        intro sp sum hr
        obtain ⟨i, x, y, m, data, rfl⟩ := reindex_form hr
        rfl
      cases arg <;> exact key _ _ ht
    split at h
    · cases h
    · rw [htd, h1] at h
      simp [throw, throwThe, MonadExceptOf.throw] at h

/-- `average_partial` for an evenly spaced statistic. -/
example : (averageCall true ⟨[]⟩ tall "r" .none true (some [])).2.2 = .ok ⟨["k", "mu"], [[0, 1, 2], [0, 1]], [[1/2, 3/2], [1/2]],
  [⟨"modes", true, [.fin 15, .fin 40]⟩, ⟨"power", false, [.fin (13/4), .fin (29/3)]⟩, ⟨"w", false, [.fin (6/5), .fin (7/5)]⟩],
  [false, false], (), ["modes"]⟩ := by
  decide +kernel

example : ReindexArgs true tall "r" (([0, 2, 4, 6, 8, 10] : List ℚ).getLastD 0 - ([0, 2, 4, 6, 8, 10] : List ℚ).getD 0 0) .none true ([] ++ tall.fts) 1 5 5 := by
  refine ⟨rfl, rfl, by omega, by omega, ?_, nofun, ?_, none, rfl, nofun⟩
  · intro c0 c1 cs h
    have h' := Option.some.inj h
    simp only [List.cons.injEq] at h'
    rw [← h'.1, ← h'.2.1]
    decide +kernel
  · intro d hd
    simp [BS.shape, tall] at hd
    omega

end NBK.Binned
