import Verif.BoxTpcf.SwapProps
import Verif.PcfObj.CrossProps

set_option linter.unusedSimpArgs false

/-! C140: the values of the correlation function of particles in a periodic box. -/
namespace NBK.BoxTpcf
open NBK PcfObj

/-- `D` is the squared distance of nearest images in a box of side `L`. -/
def IsDist2 (L : ℚ) (D : Pos → Pos → ℚ) : Prop :=
  ∀ p q, ∃ dx dy dz, Least L (p.x - q.x) dx ∧ Least L (p.y - q.y) dy ∧ Least L (p.z - q.z) dz ∧ D p q = dx + dy + dz

theorem dist2_exists (L : ℚ) (hL : 0 < L) : ∃ D, IsDist2 L D :=
  ⟨fun p q => diff2 true L p.x q.x + diff2 true L p.y q.y + diff2 true L p.z q.z, fun p q =>
    ⟨_, _, _, by simpa [diff2] using wrap_least L p.x q.x hL, by simpa [diff2] using wrap_least L p.y q.y hL,
      by simpa [diff2] using wrap_least L p.z q.z hL, rfl⟩⟩

theorem dist2_eq {L : ℚ} (hL : 0 < L) {D : Pos → Pos → ℚ} (hD : IsDist2 L D) (p q : Pos) :
    D p q = diff2 true L p.x q.x + diff2 true L p.y q.y + diff2 true L p.z q.z := by
  obtain ⟨dx, dy, dz, h1, h2, h3, h4⟩ := hD p q
  rw [h4]
  have k : ∀ a b d, Least L (a - b) d → d = diff2 true L a b := fun a b d h => by
    unfold diff2
    rw [if_pos rfl]
    exact h.unique (wrap_least L a b hL)
  rw [k _ _ _ h1, k _ _ _ h2, k _ _ _ h3]

/-- The weighted pairs of two lists with a squared distance in `[a², b²)`. -/
def pairsIn (D : Pos → Pos → ℚ) (a b : ℚ) (X Y : List Part) : ℚ :=
  (X.map fun p => (Y.map fun q => if a ^ 2 ≤ D p.pos q.pos ∧ D p.pos q.pos < b ^ 2 then p.w * q.w else 0).sum).sum

theorem order_sum (los : Int) (f : ℚ → ℚ → ℚ) (p q : Pos) :
    f (order los p).x (order los q).x + f (order los p).y (order los q).y + f (order los p).z (order los q).z = f p.x q.x + f p.y q.y + f p.z q.z := by
  unfold order
  split
  · ring
  · split
    · ring
    · rfl

/-- In the mode '1d' the bin of two particles is told by their distance, whatever the line of sight. -/
theorem bin0_1d {L : ℚ} (hL : 0 < L) {D : Pos → Pos → ℚ} (hD : IsDist2 L D) (los : Int) (b : PcfObj.Bins) (hm : b.mode = "1d")
    (hpos : ∀ e ∈ b.edges, 0 ≤ e) (hs : b.edges.Pairwise (· ≤ ·)) (p q : Part) (i : Nat) (a c : ℚ) (h1 : b.edges[i]? = some a) (h2 : b.edges[i + 1]? = some c) :
    bin0 los true ⟨L, L, L⟩ b p q = some i ↔ a ^ 2 ≤ D p.pos q.pos ∧ D p.pos q.pos < c ^ 2 := by
  rw [bin0_eq los true ⟨L, L, L⟩ b (fun _ => ⟨rfl, rfl⟩)]
  unfold binOf
  rw [(bins2_1d hm).1]
  simp only
  rw [order_sum los (fun x y => diff2 true L x y), ← dist2_eq hL hD, Pairs.binOf_iff b.edges hpos hs]
  have hl : i + 1 < b.edges.length := by
    rw [List.getElem?_eq_some_iff] at h2
    exact h2.1
  have e1 : b.edges.getD i 0 = a := by rw [List.getD_eq_getElem?_getD, h1]; rfl
  have e2 : b.edges.getD (i + 1) 0 = c := by rw [List.getD_eq_getElem?_getD, h2]; rfl
  rw [e1, e2]
  exact ⟨fun h => h.2, fun h => ⟨hl, h⟩⟩

/-- What is asked of a '1d' correlation function without randoms in a periodic cube. -/
structure Cube (C : Nat → Cat) (kw : Kw) (g : Args) (L : ℚ) (l : Int) : Prop where
  kind : g.kind = .sim
  per : g.periodic = true
  rand : g.randoms1 = none
  mode : g.bins.mode = "1d"
  nmu : g.bins.Nmu = none
  pimax : g.bins.pimax = none
  ne : g.bins.edges ≠ []
  pos : ∀ e ∈ g.bins.edges, 0 < e
  le : ∀ e ∈ g.bins.edges, e ≤ L / 2
  los : BoxPairs.parseLos kw.los = .ok (l, true)
  noArg : g.box = none
  side : 0 < L
  box1 : (C g.data1).box = some ⟨L, L, L⟩
  box2 : ∀ d, g.data2 = some d → (C d).box = some ⟨L, L, L⟩

theorem Cube.args {C : Nat → Cat} {kw : Kw} {g : Args} {L : ℚ} {l : Int} (h : Cube C kw g L l) :
    ∃ md, Pairs.checkArgs g.bins.mode g.bins.edges g.bins.Nmu g.bins.pimax = .ok md := by
  rw [Pairs.checkArgs_iff]
  have n1 : ¬ ("1d" = "2d") := by decide
  have n2 : ¬ ("1d" = "projected") := by decide
  simp [h.mode, h.ne, h.nmu, h.pimax, n1, n2]
  exact h.pos

theorem maxEdge_le (es : List ℚ) (M : ℚ) (h0 : 0 ≤ M) (h : ∀ e ∈ es, e ≤ M) : Pairs.maxEdge es ≤ M := by
  unfold Pairs.maxEdge
  have : ∀ (es : List ℚ) (m : ℚ), m ≤ M → (∀ e ∈ es, e ≤ M) → es.foldl max m ≤ M := by
    intro es
    induction es with
    | nil => intro m hm _; exact hm
    | cons e es ih => intro m hm h; exact ih _ (max_le hm (h e (by simp))) (fun x hx => h x (by simp [hx]))
  exact this es 0 h0 h

theorem Cube.checks {C : Nat → Cat} {kw : Kw} {g : Args} {L : ℚ} {l : Int} (h : Cube C kw g L l) :
    checks kw.los true none g.bins (C g.data1) ((g.data2.map C).getD (C g.data1)) = .ok (l, ⟨L, L, L⟩) := by
  have h2 : ((g.data2.map C).getD (C g.data1)).box = some ⟨L, L, L⟩ := by
    cases hd : g.data2 with
    | none => exact h.box1
    | some d => exact h.box2 d hd
  obtain ⟨md, hmd⟩ := h.args
  have hL := h.side
  have hbx : boxSize (C g.data1) ((g.data2.map C).getD (C g.data1)) none = .ok ⟨L, L, L⟩ := by
    unfold boxSize
    rw [h2, h.box1]
    simp [hL.ne']
  unfold BoxTpcf.checks
  rw [h.los]
  simp only
  rw [hbx]
  simp only [Except.bind]
  rw [hmd]
  simp only
  have ht : tooLarge ⟨L, L, L⟩ g.bins = false := by
    unfold tooLarge minSide
    have n2 : ¬ ("1d" = "projected") := by decide
    simp only [min_self, h.mode]
    have := maxEdge_le g.bins.edges (L / 2) (by linarith) h.le
    simp [not_lt]
    linarith
  simp [ht]

/-- The count of the data pairs. -/
theorem Cube.count {P : Nat} {C : Nat → Cat} (hP : ∀ i, (C i).rows.length = P) {E : Env} {root : ℚ → ℚ} {mach : Nat → Option Nat → Mach}
    (hm : ∀ i j, (mach i j).Good P) {kw : Kw} {g : Args} {L : ℚ} {l : Int} (h : Cube C kw g L l) :
    (envOf E root mach kw C g).count .box g.bins g.data1 g.data2 =
      .ok (direct root l true ⟨L, L, L⟩ g.bins (C g.data1).all ((g.data2.map C).map Cat.all) (decide (g.data2 = some g.data1))) := by
  have ha : g.bins.mode ≠ "angular" := by rw [h.mode]; decide
  have n1 : ¬ ("1d" = "2d") := by decide
  unfold envOf
  simp only [ha, ne_eq, not_false_eq_true, and_self, if_true, h.noArg, boxArg, Except.bind, periodicOf, h.kind, h.per, Option.getD_some]
  rw [count_eq root (mach g.data1 g.data2) P (hm _ _) _ _ _ none g.bins ha (C g.data1) _ _ (hP _), h.checks]
  simp [Except.bind, h.mode, n1]

theorem make_ok (dims : List String) (edges : List (List ℚ)) (data : List Binned.Col) (fts : List String) (a : Option ℚ) (h : dims.length = edges.length) :
    ∃ b, make dims edges (edges.map fun e => e.length - 1) data fts a = .ok b :=
  ⟨_, (make_iff _ _ _ _ _ _ _).mpr ⟨h, rfl, rfl⟩⟩

/-- C140: such a correlation function is made. -/
theorem Cube.made {P : Nat} {C : Nat → Cat} (hP : ∀ i, (C i).rows.length = P) {E : Env} {root : ℚ → ℚ} {mach : Nat → Option Nat → Mach}
    (hm : ∀ i j, (mach i j).Good P) {kw : Kw} {g : Args} {L : ℚ} {l : Int} (h : Cube C kw g L l) : ∃ o, tpcf E root mach kw C g = .ok o := by
  have ha : ¬ g.bins.mode = "angular" := by rw [h.mode]; decide
  have hp : ¬ g.bins.mode = "projected" := by rw [h.mode]; decide
  have hct : counterOf g = .box := by simp [counterOf, periodicOf, h.kind]
  obtain ⟨md, hmd⟩ := h.args
  have hc := h.count hP (E := E) (root := root) hm
  unfold tpcf new
  obtain ⟨e, hee⟩ : ∃ e, e = envOf E root mach kw C g := ⟨_, rfl⟩
  rw [← hee] at hc ⊢
  obtain ⟨x, hx⟩ : ∃ x, e.count .box g.bins g.data1 g.data2 = .ok x := ⟨_, hc⟩
  obtain ⟨p, hp', -, -, -, -, -, -, hsh, hl, -⟩ := pairs_spec .box g.bins x md hmd
  have hcd : counted e .box g.bins g.data1 g.data2 = .ok (x, p) := by
    unfold counted
    rw [hmd]
    simp [hx, hp', Except.bind]
  have hb : ∃ q, runBase e g = .ok q := by
    unfold runBase
    rw [if_pos (by simp [isAnalytic, periodicOf, h.kind, h.per, h.rand])]
    unfold runNatural
    have hn : naturalData e g = .ok (g.data1, g.data2) := by simp [naturalData, ha]
    rw [hn]
    simp only [Except.bind, hct, hcd]
    unfold analyticPairs corrOf
    rw [hsh]
    obtain ⟨b1, k1⟩ := make_ok p.dims p.edges [⟨"npairs", false, (Estim.analytic (filling e g.bins.mode p.edges (g.box.getD ((e.boxOf g.data1).getD [0, 0, 0])))
      (e.csize g.data1) (if x.isCross then g.data2.map fun c => (e.csize c : ℚ) else none)).2.map .fin⟩,
      ⟨"wnpairs", false, (Estim.analytic (filling e g.bins.mode p.edges (g.box.getD ((e.boxOf g.data1).getD [0, 0, 0])))
      (e.csize g.data1) (if x.isCross then g.data2.map fun c => (e.csize c : ℚ) else none)).2.map .fin⟩] [] none hl
    rw [k1]
    simp only [Except.bind]
    obtain ⟨b2, k2⟩ := make_ok p.dims p.edges [⟨"corr", false, (Estim.natural (filling e g.bins.mode p.edges (g.box.getD ((e.boxOf g.data1).getD [0, 0, 0])))
      (e.csize g.data1) (if x.isCross then g.data2.map fun c => (e.csize c : ℚ) else none) x.pc).map PcfObj.val⟩,
      ⟨p.dims.headD "", false, (p.data.find? fun c => c.name = p.dims.headD "").elim [] Binned.Col.vals⟩] [] none hl
    rw [k2]
    exact ⟨_, rfl⟩
  obtain ⟨q, hq⟩ := hb
  rw [hq]
  simp only [Except.bind, if_neg hp]
  exact ⟨_, rfl⟩

theorem tally_in {L : ℚ} (hL : 0 < L) {D : Pos → Pos → ℚ} (hD : IsDist2 L D) (los : Int) (b : PcfObj.Bins) (hm : b.mode = "1d")
    (hpos : ∀ e ∈ b.edges, 0 ≤ e) (hs : b.edges.Pairwise (· ≤ ·)) (X Y : List Part) (i : Nat) (a c : ℚ) (h1 : b.edges[i]? = some a)
    (h2 : b.edges[i + 1]? = some c) : tallyS (bin0 los true ⟨L, L, L⟩ b) (fun p q : Part => p.w * q.w) X Y i = pairsIn D a c X Y := by
  unfold tallyS pairsIn
  congr 1
  apply List.map_congr_left
  intro p _
  congr 1
  apply List.map_congr_left
  intro q _
  simp only [bin0_1d hL hD los b hm hpos hs p q i a c h1 h2]

theorem csize_all (c : Cat) : (c.rows.map List.length).sum = c.all.length := by
  unfold Cat.all
  rw [List.length_flatten]

/-- C140: the values of the correlation function of a catalog in a periodic cube: the pairs with nearest images at distances `[a, b)`, as a fraction of
all pairs, over the volume of the shell, as a fraction of the cube, times `(N-1)/N`, less one. -/
theorem auto_value {P : Nat} {C : Nat → Cat} (hP : ∀ i, (C i).rows.length = P) {E : Env} {root : ℚ → ℚ} {mach : Nat → Option Nat → Mach}
    (hm : ∀ i j, (mach i j).Good P) {kw : Kw} {g : Args} {L : ℚ} {l : Int} (h : Cube C kw g L l) (hd : g.data2 = none)
    (hs : g.bins.edges.Pairwise (· ≤ ·)) {D : Pos → Pos → ℚ} (hD : IsDist2 L D) (X : List Part) (hX : X = (C g.data1).all)
    (W : ℚ) (hW : W = (X.map Part.w).sum ^ 2 - (X.map fun p => p.w ^ 2).sum) (hW0 : W ≠ 0) (N : ℚ) (hN : N = X.length) (hpi : E.pi ≠ 0)
    (o : Tpcf) (ho : tpcf E root mach kw C g = .ok o) (i : Nat) (a b : ℚ) (h1 : g.bins.edges[i]? = some a) (h2 : g.bins.edges[i + 1]? = some b) (hab : a ≠ b) :
    (columnOf o.corr "corr")[i]? = some (.fin (pairsIn D a b X X / W / (4 / 3 * E.pi * (b ^ 3 - a ^ 3) / L ^ 3) * ((N - 1) / N) - 1)) := by
  have hL := h.side
  have hc := h.count hP (E := E) (root := root) hm
  rw [hd] at hc
  simp only [Option.map_none] at hc
  have hil : i < g.bins.edges.length - 1 := by
    rw [List.getElem?_eq_some_iff] at h2
    have := h2.1
    omega
  have hpos0 : ∀ e ∈ g.bins.edges, 0 ≤ e := fun e he => (h.pos e he).le
  have ham : a ∈ g.bins.edges := List.mem_of_getElem? h1
  have hbm : b ∈ g.bins.edges := List.mem_of_getElem? h2
  have ha0 := h.pos a ham
  have hb0 := h.pos b hbm
  have h3ne : b ^ 3 - a ^ 3 ≠ 0 := by
    intro h0
    have : b ^ 3 = a ^ 3 := by linarith
    exact hab ((pow_left_inj₀ hb0.le ha0.le (by norm_num)).mp this).symm
  have hN0 : N ≠ 0 := by
    rintro rfl
    have : X.length = 0 := by exact_mod_cast hN.symm
    rw [List.length_eq_zero_iff] at this
    rw [this] at hW
    simp at hW
    exact hW0 hW
  have hV : ((L ^ 3 : ℚ)) = (g.box.getD (((envOf E root mach kw C g).boxOf g.data1).getD [0, 0, 0])).prod := by
    rw [h.noArg]
    simp only [envOf, h.box1, ofPos, Option.map_some, Option.getD_some, Option.getD_none, List.prod_cons, List.prod_nil]
    ring
  have key := natural_1d (envOf E root mach kw C g) g h.kind h.per h.rand hd h.mode o ho _ hc rfl i a b
    (tallyN (bin0 l true ⟨L, L, L⟩ g.bins) X X i) (pairsIn D a b X X) h1 h2 (by
      simp only [direct, tally, Option.getD_none, (bins2_1d h.mode).2]
      rw [List.getElem?_map, List.getElem?_range hil, ← hX, Option.map_some, tally_in hL hD l g.bins h.mode hpos0 hs X X i a b h1 h2]) N (L ^ 3) (by
      simp only [envOf]
      rw [csize_all, ← hX, hN]) hV hN0 (by
      simp only [direct, total, ← hX]
      simp only [decide_eq_true_eq, reduceCtorEq, decide_false, Bool.false_eq_true, if_false, Option.elim_none]
      rw [← hW]
      exact mul_ne_zero (by norm_num) hW0) (by
      have : (envOf E root mach kw C g).pi = E.pi := rfl
      rw [this]
      exact div_ne_zero (mul_ne_zero hpi h3ne) (pow_ne_zero 3 hL.ne'))
  rw [key]
  have ht : (direct root l true ⟨L, L, L⟩ g.bins (C g.data1).all none (decide (none = some g.data1))).total = 1 / 2 * W := by
    simp only [direct, total, ← hX]
    simp only [reduceCtorEq, decide_false, Bool.false_eq_true, if_false, Option.elim_none]
    rw [← hW]
  rw [ht]
  have hpe : (envOf E root mach kw C g).pi = E.pi := rfl
  rw [hpe]
  congr 3
  have hL3 : L ≠ 0 := hL.ne'
  field_simp
  try ring

theorem sum_nonneg' {A : Type} (f : A → ℚ) (l : List A) (h : ∀ a ∈ l, 0 ≤ f a) : 0 ≤ (l.map f).sum := by
  apply List.sum_nonneg
  intro x hx
  obtain ⟨a, ha, rfl⟩ := List.mem_map.mp hx
  exact h a ha

theorem pairsIn_nonneg (D : Pos → Pos → ℚ) (a b : ℚ) (X Y : List Part) (hX : ∀ p ∈ X, 0 ≤ p.w) (hY : ∀ p ∈ Y, 0 ≤ p.w) : 0 ≤ pairsIn D a b X Y := by
  unfold pairsIn
  apply sum_nonneg'
  intro p hp
  apply sum_nonneg'
  intro q hq
  split
  · exact mul_nonneg (hX p hp) (hY q hq)
  · exact le_refl _

theorem squares_le (X : List Part) (hX : ∀ p ∈ X, 0 ≤ p.w) : (X.map fun p => p.w ^ 2).sum ≤ (X.map Part.w).sum ^ 2 := by
  induction X with
  | nil => simp
  | cons p X ih =>
    have h1 := ih fun q hq => hX q (by simp [hq])
    have h2 := sum_nonneg' Part.w X fun q hq => hX q (by simp [hq])
    have h3 := hX p (by simp)
    simp only [List.map_cons, List.sum_cons]
    nlinarith [mul_nonneg h3 h2]

/-- C140: the correlation function is never below -1 if no weight is negative. -/
theorem auto_bound {P : Nat} {C : Nat → Cat} (hP : ∀ i, (C i).rows.length = P) {E : Env} {root : ℚ → ℚ} {mach : Nat → Option Nat → Mach}
    (hm : ∀ i j, (mach i j).Good P) {kw : Kw} {g : Args} {L : ℚ} {l : Int} (h : Cube C kw g L l) (hd : g.data2 = none)
    (hs : g.bins.edges.Pairwise (· ≤ ·)) (hpi : 0 < E.pi) (hw : ∀ p ∈ (C g.data1).all, 0 ≤ p.w)
    (hW : (((C g.data1).all.map Part.w).sum ^ 2 - ((C g.data1).all.map fun p => p.w ^ 2).sum) ≠ 0)
    (o : Tpcf) (ho : tpcf E root mach kw C g = .ok o) (i : Nat) (a b : ℚ) (h1 : g.bins.edges[i]? = some a) (h2 : g.bins.edges[i + 1]? = some b) (hab : a ≠ b) :
    ∃ v, (columnOf o.corr "corr")[i]? = some (.fin v) ∧ -1 ≤ v := by
  obtain ⟨D, hD⟩ := dist2_exists L h.side
  refine ⟨_, auto_value hP hm h hd hs hD _ rfl _ rfl hW _ rfl hpi.ne' o ho i a b h1 h2 hab, ?_⟩
  have hL := h.side
  have hp := pairsIn_nonneg D a b _ _ hw hw
  have hsq := squares_le _ hw
  have hWp : 0 < ((C g.data1).all.map Part.w).sum ^ 2 - ((C g.data1).all.map fun p => p.w ^ 2).sum :=
    lt_of_le_of_ne (by linarith) (Ne.symm hW)
  have hle : a ≤ b := by
    obtain ⟨i1, e1⟩ := List.getElem?_eq_some_iff.mp h1
    obtain ⟨i2, e2⟩ := List.getElem?_eq_some_iff.mp h2
    have := List.pairwise_iff_getElem.mp hs i (i + 1) i1 i2 (by omega)
    rwa [e1, e2] at this
  have ha0 := h.pos a (List.mem_of_getElem? h1)
  have h3 : 0 ≤ b ^ 3 - a ^ 3 := by
    have := pow_le_pow_left₀ ha0.le hle 3
    linarith
  have hN : (1 : ℚ) ≤ (C g.data1).all.length := by
    have : (C g.data1).all.length ≠ 0 := by
      intro h0
      rw [List.length_eq_zero_iff] at h0
      apply hW
      rw [h0]
      simp
    exact_mod_cast Nat.one_le_iff_ne_zero.mpr this
  have : 0 ≤ pairsIn D a b (C g.data1).all (C g.data1).all / (((C g.data1).all.map Part.w).sum ^ 2 - ((C g.data1).all.map fun p => p.w ^ 2).sum) /
      (4 / 3 * E.pi * (b ^ 3 - a ^ 3) / L ^ 3) * (((C g.data1).all.length - 1) / (C g.data1).all.length) := by
    apply mul_nonneg
    · apply div_nonneg (div_nonneg hp hWp.le)
      positivity
    · exact div_nonneg (by linarith) (by linarith)
  linarith

theorem pairsIn_append_left (D : Pos → Pos → ℚ) (a b : ℚ) (X Z Y : List Part) : pairsIn D a b (X ++ Z) Y = pairsIn D a b X Y + pairsIn D a b Z Y := by
  simp [pairsIn]

theorem pairsIn_append_right (D : Pos → Pos → ℚ) (a b : ℚ) (X Z Y : List Part) : pairsIn D a b Y (X ++ Z) = pairsIn D a b Y X + pairsIn D a b Y Z := by
  unfold pairsIn
  induction Y with
  | nil => simp
  | cons y Y ih =>
    rw [List.map_cons, List.sum_cons, ih]
    simp only [List.map_cons, List.sum_cons, List.map_append, List.sum_append]
    ring

theorem sum_zero {A : Type} (f : A → ℚ) (l : List A) (h : ∀ a ∈ l, f a = 0) : (l.map f).sum = 0 := by
  apply List.sum_eq_zero
  intro x hx
  obtain ⟨a, ha, rfl⟩ := List.mem_map.mp hx
  exact h a ha

theorem pairsIn_zero_left (D : Pos → Pos → ℚ) (a b : ℚ) (Z Y : List Part) (hZ : ∀ p ∈ Z, p.w = 0) : pairsIn D a b Z Y = 0 := by
  unfold pairsIn
  apply sum_zero
  intro p hp
  apply sum_zero
  intro q _
  simp [hZ p hp]

theorem pairsIn_zero_right (D : Pos → Pos → ℚ) (a b : ℚ) (Z Y : List Part) (hZ : ∀ p ∈ Z, p.w = 0) : pairsIn D a b Y Z = 0 := by
  unfold pairsIn
  apply sum_zero
  intro p _
  apply sum_zero
  intro q hq
  simp [hZ q hq]

/-- C140: particles of weight zero change the correlation function of a catalog without randoms: their number enters the analytic pairs, though their
weights enter nothing. Where the correlation function of `N` particles is `v`, that with `n` more of weight zero is
`(1 + v) * (N + n - 1) / (N + n) * N / (N - 1) - 1`; so it changes unless `v` is -1. -/
theorem zero_weight_counts {P : Nat} {C C' : Nat → Cat} (hP : ∀ i, (C i).rows.length = P) (hP' : ∀ i, (C' i).rows.length = P) {E : Env} {root : ℚ → ℚ}
    {mach : Nat → Option Nat → Mach} (hm : ∀ i j, (mach i j).Good P) {kw : Kw} {g : Args} {L : ℚ} {l : Int} (h : Cube C kw g L l) (h' : Cube C' kw g L l)
    (hd : g.data2 = none) (hs : g.bins.edges.Pairwise (· ≤ ·)) (hpi : E.pi ≠ 0) (Z : List Part) (hZ : ∀ p ∈ Z, p.w = 0)
    (hall : (C' g.data1).all = (C g.data1).all ++ Z)
    (hW : (((C g.data1).all.map Part.w).sum ^ 2 - ((C g.data1).all.map fun p => p.w ^ 2).sum) ≠ 0)
    (o o' : Tpcf) (ho : tpcf E root mach kw C g = .ok o) (ho' : tpcf E root mach kw C' g = .ok o') (i : Nat) (a b : ℚ)
    (h1 : g.bins.edges[i]? = some a) (h2 : g.bins.edges[i + 1]? = some b) (hab : a ≠ b) :
    ∃ v v', (columnOf o.corr "corr")[i]? = some (.fin v) ∧ (columnOf o'.corr "corr")[i]? = some (.fin v') ∧
      (1 + v') * (((C g.data1).all.length - 1) / (C g.data1).all.length) =
        (1 + v) * (((C g.data1).all.length + Z.length - 1) / ((C g.data1).all.length + Z.length)) ∧
      (Z ≠ [] → 2 ≤ (C g.data1).all.length → v ≠ -1 → v' ≠ v) := by
  obtain ⟨D, hD⟩ := dist2_exists L h.side
  have hW' : (((C' g.data1).all.map Part.w).sum ^ 2 - ((C' g.data1).all.map fun p => p.w ^ 2).sum) =
      (((C g.data1).all.map Part.w).sum ^ 2 - ((C g.data1).all.map fun p => p.w ^ 2).sum) := by
    rw [hall]
    simp only [List.map_append, List.sum_append]
    rw [sum_zero Part.w Z hZ, sum_zero (fun p : Part => p.w ^ 2) Z (fun p hp => by simp [hZ p hp]), add_zero, add_zero]
  have hp' : pairsIn D a b (C' g.data1).all (C' g.data1).all = pairsIn D a b (C g.data1).all (C g.data1).all := by
    rw [hall, pairsIn_append_left, pairsIn_append_right, pairsIn_zero_left D a b Z _ hZ, pairsIn_zero_right D a b Z _ hZ, add_zero, add_zero]
  have e1 := auto_value hP hm h hd hs hD _ rfl _ rfl hW _ rfl hpi o ho i a b h1 h2 hab
  have e2 := auto_value hP' hm h' hd hs hD _ rfl _ rfl (by rw [hW']; exact hW) _ rfl hpi o' ho' i a b h1 h2 hab
  rw [hW', hp'] at e2
  have hl' : ((C' g.data1).all.length : ℚ) = (C g.data1).all.length + Z.length := by rw [hall, List.length_append]; push_cast; rfl
  rw [hl'] at e2
  have key : ∀ A n z : ℚ, (1 + (A * ((n + z - 1) / (n + z)) - 1)) * ((n - 1) / n) = (1 + (A * ((n - 1) / n) - 1)) * ((n + z - 1) / (n + z)) := by
    intros
    ring
  refine ⟨_, _, e1, e2, key _ _ _, ?_⟩
  intro hz hn hv heq
  generalize pairsIn D a b (C g.data1).all (C g.data1).all / (((C g.data1).all.map Part.w).sum ^ 2 - ((C g.data1).all.map fun p => p.w ^ 2).sum) /
      (4 / 3 * E.pi * (b ^ 3 - a ^ 3) / L ^ 3) = A at hv heq
  have hA : A ≠ 0 := by
    rintro rfl
    apply hv
    ring
  have hz' : (0 : ℚ) < Z.length := by
    have := List.length_pos_iff.mpr hz
    exact_mod_cast this
  have hn' : (2 : ℚ) ≤ (C g.data1).all.length := by exact_mod_cast hn
  have h3 : A * (((C g.data1).all.length + Z.length - 1) / ((C g.data1).all.length + Z.length)) = A * (((C g.data1).all.length - 1) / (C g.data1).all.length) := by
    linarith
  have h4 := mul_left_cancel₀ hA h3
  rw [div_eq_div_iff (by linarith) (by linarith)] at h4
  nlinarith

/-- What the first count of `SimulationBox2PCF` raises is raised by it. -/
theorem first_error {E : Env} {root : ℚ → ℚ} {mach : Nat → Option Nat → Mach} {kw : Kw} {C : Nat → Cat} {g : Args} (hk : g.kind = .sim)
    (hr : g.randoms1 = none) (hp : g.periodic = true) (ha : g.bins.mode ≠ "angular") {md : Pairs.Mode}
    (hmd : Pairs.checkArgs g.bins.mode g.bins.edges g.bins.Nmu g.bins.pimax = .ok md) (hbx : g.box = none) (er : Err)
    (h : checks kw.los true none g.bins (C g.data1) ((g.data2.map C).getD (C g.data1)) = .error er) : tpcf E root mach kw C g = .error er := by
  have hct : counterOf g = .box := by simp [counterOf, periodicOf, hk]
  have hc : (envOf E root mach kw C g).count .box g.bins g.data1 g.data2 = .error er := by
    unfold envOf
    simp only [ha, ne_eq, not_false_eq_true, and_self, if_true, hbx, boxArg, Except.bind, periodicOf, hk, hp, Option.getD_some]
    unfold countBox
    rw [h]
    rfl
  unfold tpcf new runBase
  rw [if_pos (by simp [isAnalytic, periodicOf, hk, hp, hr])]
  unfold runNatural
  have hn : naturalData (envOf E root mach kw C g) g = .ok (g.data1, g.data2) := by simp [naturalData, ha]
  rw [hn]
  simp only [Except.bind, hct]
  unfold counted
  rw [hmd]
  simp only
  rw [hc]
  rfl

/-- C140: in a periodic box that is not a cube there is no correlation function: `NotImplementedError`, if the separations are small enough. -/
theorem not_cubic {E : Env} {root : ℚ → ℚ} {mach : Nat → Option Nat → Mach} {kw : Kw} {C : Nat → Cat} {g : Args} (hk : g.kind = .sim)
    (hr : g.randoms1 = none) (hp : g.periodic = true) (ha : g.bins.mode ≠ "angular") {md : Pairs.Mode}
    (hmd : Pairs.checkArgs g.bins.mode g.bins.edges g.bins.Nmu g.bins.pimax = .ok md) (hbx : g.box = none) (l : Int) (hl : BoxPairs.parseLos kw.los = .ok (l, true))
    (hd : g.data2 = none) (box : Pos) (hb : (C g.data1).box = some box) (hle : ∀ e ∈ g.bins.edges, ∀ s ∈ [box.x, box.y, box.z], e ≤ s / 2)
    (hpm : ∀ p, g.bins.pimax = some p → ∀ s ∈ [box.x, box.y, box.z], p ≤ s / 2) (hs : ∀ s ∈ [box.x, box.y, box.z], 0 < s)
    (hn : box.y ≠ box.x ∨ box.z ≠ box.x) : tpcf E root mach kw C g = .error .other := by
  apply first_error hk hr hp ha hmd hbx
  have hx := hs box.x (by simp)
  rw [hd]
  have hbs : boxSize (C g.data1) ((Option.map C none).getD (C g.data1)) none = .ok box := by
    unfold boxSize
    simp only [Option.map_none, Option.getD_none, hb, Option.getD_some]
    rw [if_neg (by rintro rfl; exact lt_irrefl _ hx)]
    simp
  unfold checks
  rw [hl]
  simp only
  rw [hbs]
  simp only [Except.bind]
  rw [hmd]
  simp only
  have hmin : ∀ M : ℚ, (∀ s ∈ [box.x, box.y, box.z], M ≤ s / 2) → M ≤ 1 / 2 * minSide box := by
    intro M h
    have h1 := h box.x (by simp)
    have h2 := h box.y (by simp)
    have h3 := h box.z (by simp)
    have : 2 * M ≤ minSide box := le_min (by linarith) (le_min (by linarith) (by linarith))
    linarith
  have ht : tooLarge box g.bins = false := by
    unfold tooLarge
    have k1 : Pairs.maxEdge g.bins.edges ≤ 1 / 2 * minSide box := by
      apply hmin
      intro s hs'
      exact maxEdge_le _ _ (by have := hs s hs'; linarith) fun e he => hle e he s hs'
    have k2 : g.bins.pimax.getD 0 ≤ 1 / 2 * minSide box := by
      apply hmin
      intro s hs'
      cases hpp : g.bins.pimax with
      | none => have := hs s hs'; simp only [Option.getD_none]; linarith
      | some p => exact hpm p hpp s hs'
    simp only [not_lt.mpr k1, not_lt.mpr k2, decide_false, Bool.and_false, Bool.or_self]
  rw [ht]
  have hn' : ¬ (box.y = box.x ∧ box.z = box.x) := by
    rintro ⟨h1, h2⟩
    rcases hn with h | h
    · exact h h1
    · exact h h2
  simp
  exact fun h1 h2 => hn' ⟨h1, h2⟩

/-- C140: separations of more than half the shortest side are refused with `ValueError`. -/
theorem too_large {E : Env} {root : ℚ → ℚ} {mach : Nat → Option Nat → Mach} {kw : Kw} {C : Nat → Cat} {g : Args} (hk : g.kind = .sim)
    (hr : g.randoms1 = none) (hp : g.periodic = true) (ha : g.bins.mode ≠ "angular") {md : Pairs.Mode}
    (hmd : Pairs.checkArgs g.bins.mode g.bins.edges g.bins.Nmu g.bins.pimax = .ok md) (hbx : g.box = none)
    (hd : g.data2 = none) (box : Pos) (hb : (C g.data1).box = some box) (s : ℚ) (hs : s ∈ [box.x, box.y, box.z])
    (hl : (∃ e ∈ g.bins.edges, s / 2 < e) ∨ (g.bins.mode = "projected" ∧ ∃ p, g.bins.pimax = some p ∧ s / 2 < p)) :
    tpcf E root mach kw C g = .error .valueError := by
  apply first_error hk hr hp ha hmd hbx
  rw [hd]
  have hms : minSide box ≤ s := by
    unfold minSide
    simp only [List.mem_cons, List.not_mem_nil, or_false] at hs
    rcases hs with rfl | rfl | rfl
    · exact min_le_left _ _
    · exact le_trans (min_le_right _ _) (min_le_left _ _)
    · exact le_trans (min_le_right _ _) (min_le_right _ _)
  have ht : tooLarge box g.bins = true := by
    unfold tooLarge
    rcases hl with ⟨e, he, h⟩ | ⟨hm, p, hpp, h⟩
    · obtain ⟨i, hi, rfl⟩ := List.getElem_of_mem he
      have := (Pairs.le_maxEdge g.bins.edges i).1
      rw [List.getD_eq_getElem _ _ hi] at this
      rw [Bool.or_eq_true]
      exact .inl (by rw [decide_eq_true_eq]; linarith)
    · rw [Bool.or_eq_true]
      exact .inr (by rw [Bool.and_eq_true, hpp, decide_eq_true_eq]; exact ⟨by rw [hm]; decide, by simp only [Option.getD_some]; linarith⟩)
  unfold checks
  cases BoxPairs.parseLos kw.los with
  | error _ => rfl
  | ok l =>
    simp only
    cases hbs : boxSize (C g.data1) ((Option.map C none).getD (C g.data1)) none with
    | error e =>
      unfold boxSize at hbs
      simp only [Option.map_none, Option.getD_none, hb, Option.getD_some] at hbs
      split at hbs
      · cases hbs; rfl
      · simp at hbs
    | ok b =>
      unfold boxSize at hbs
      simp only [Option.map_none, Option.getD_none, hb, Option.getD_some] at hbs
      split at hbs
      · cases hbs
      · simp at hbs
        rw [← hbs]
        simp only [Except.bind]
        rw [hmd]
        simp [ht]

end NBK.BoxTpcf
