import Verif.BoxTpcf.Props

set_option linter.unusedSimpArgs false

/-! C140: units of the weights, and exchanged catalogs. -/
namespace NBK.BoxTpcf
open NBK PcfObj

/-! ### Objects of counts whose weights have another unit -/

/-- The count in another unit of the weights. -/
def scaleC (k : ℚ) (x : Count) : Count := { x with total := k * x.total, rows := x.rows.map fun r => (r.1, k * r.2) }

theorem counted_ok {e : Env} {c : Counter} {b : PcfObj.Bins} {i : Nat} {j : Option Nat} {md : Pairs.Mode} {x : Count}
    (hck : Pairs.checkArgs b.mode b.edges b.Nmu b.pimax = .ok md) (hx : e.count c b i j = .ok x) :
    ∃ p, counted e c b i j = .ok (x, p) ∧ stateBins b = .ok (p.dims, p.edges) ∧ p.shape = p.edges.map (fun e => e.length - 1) ∧
      p.data = pairsData (p.dims.headD "") x := by
  obtain ⟨p, h1, h2, -, h4, -, -, -, h8, -⟩ := pairs_spec c b x md hck
  refine ⟨p, ?_, h2, h8, h4⟩
  unfold counted
  simp only [hck, hx, Except.bind, h1]

/-- The correlation object depends on the count only by its separations. -/
theorem corrOf_eq {b : PcfObj.Bins} {p p' : BS} {x x' : Count} (h : stateBins b = .ok (p.dims, p.edges)) (h' : stateBins b = .ok (p'.dims, p'.edges))
    (hs : p.shape = p.edges.map (fun e => e.length - 1)) (hs' : p'.shape = p'.edges.map (fun e => e.length - 1))
    (hd : p.data = pairsData (p.dims.headD "") x) (hd' : p'.data = pairsData (p'.dims.headD "") x') (hx : x'.sep = x.sep) (cf : List (Option ℚ)) :
    corrOf p' cf = corrOf p cf ∧ (∀ rr, analyticPairs p' rr = analyticPairs p rr) ∧ p'.edges = p.edges ∧ p'.shape = p.shape ∧ p'.dims = p.dims := by
  have e : (p'.dims, p'.edges) = (p.dims, p.edges) := Except.ok.inj (h'.symm.trans h)
  obtain ⟨e1, e2⟩ := Prod.mk.inj e
  have e3 : p'.shape = p.shape := by rw [hs, hs', e2]
  refine ⟨?_, fun rr => ?_, e2, e3, e1⟩
  · unfold corrOf
    simp only [e1, e2, e3, hd, hd', pairsData, List.find?_cons, decide_true, Option.elim_some, hx]
  · unfold analyticPairs
    rw [e1, e2, e3]

theorem fdiv_scale (k a b c : ℚ) (hk : k ≠ 0) : Estim.fdiv (c * a) (k * b) = (Estim.fdiv a b).map fun q => c / k * q := by
  unfold Estim.fdiv
  by_cases hb : b = 0
  · simp [hb]
  · rw [if_neg hb, if_neg (mul_ne_zero hk hb)]
    simp only [Option.map_some, Option.some.injEq]
    field_simp

theorem lsBin_scale (k1 k2 k3 k4 tDD tDR tRD tRR DD DR RD RR : ℚ) (n : Nat) (h1 : k1 ≠ 0) (h2 : k2 ≠ 0) (h3 : k3 ≠ 0) (h4 : k4 ≠ 0) :
    Estim.lsBin (k1 * tDD) (k2 * tDR) (k3 * tRD) (k4 * tRR) (k1 * DD) (k2 * DR) (k3 * RD) (n, k4 * RR) =
      Estim.lsBin tDD tDR tRD tRR DD DR RD (n, RR) := by
  unfold Estim.lsBin
  dsimp only
  split
  · rw [fdiv_scale k1 tRR tDD k4 h1, fdiv_scale k2 tRR tDR k4 h2, fdiv_scale k3 tRR tRD k4 h3]
    cases Estim.fdiv tRR tDD with
    | none => rfl
    | some a =>
      cases Estim.fdiv tRR tDR with
      | none => rfl
      | some c =>
        cases Estim.fdiv tRR tRD with
        | none => rfl
        | some d =>
          simp only [Option.map_some, Option.bind_eq_bind, Option.bind_some]
          have e : k4 / k1 * a * (k1 * DD) - k4 / k2 * c * (k2 * DR) - k4 / k3 * d * (k3 * RD) = k4 * (a * DD - c * DR - d * RD) := by
            field_simp
          rw [e, fdiv_scale k4 _ RR k4 h4, div_self h4]
          cases Estim.fdiv (a * DD - c * DR - d * RD) RR with
          | none => rfl
          | some q => simp
  · rfl

theorem natural_scale (ff : List ℚ) (N1 : ℚ) (N2 : Option ℚ) (x : Count) (k : ℚ) (hk : k ≠ 0) :
    Estim.natural ff N1 N2 (scaleC k x).pc = Estim.natural ff N1 N2 x.pc := by
  unfold Estim.natural
  simp only [scaleC, Count.pc]
  rw [List.zip_map_left, List.map_map]
  apply List.map_congr_left
  intro r _
  obtain ⟨⟨n, w⟩, f⟩ := r
  simp only [Function.comp, Prod.map_apply, id_eq]
  rw [show (Estim.analytic ff N1 N2).1 = 1 * (Estim.analytic ff N1 N2).1 by ring, fdiv_scale k _ x.total 1 hk, one_mul]
  cases Estim.fdiv (Estim.analytic ff N1 N2).1 x.total with
  | none => rfl
  | some a =>
    simp only [Option.map_some, Option.bind_eq_bind, Option.bind_some]
    congr 2
    field_simp

/-- What the estimators say: the correlation function and `wp`. -/
def outcome (o : Except PcfObj.Err Tpcf) : Except PcfObj.Err (BS × Option (Option BS)) := o.map fun o => (o.corr, o.wp)

/-- The counts of each two catalogs in another unit. -/
def ScaledCounts (κ : Nat → Option Nat → ℚ) (c : Counter) (b : PcfObj.Bins) (e e' : Env) : Prop :=
  (∀ i j, κ i j ≠ 0) ∧ (∀ i j, e'.count c b i j = (e.count c b i j).map (scaleC (κ i j))) ∧ e'.csize = e.csize ∧ e'.boxOf = e.boxOf ∧ e'.pi = e.pi ∧
    e'.cap = e.cap ∧ e'.oldNumpy = e.oldNumpy ∧ e'.world = e.world

theorem scaleC_sep (k : ℚ) (x : Count) : (scaleC k x).sep = x.sep := rfl

/-- The two runs of counting and what follows. -/
theorem counted_scaled {κ : Nat → Option Nat → ℚ} {c : Counter} {b : PcfObj.Bins} {e e' : Env} (h : ScaledCounts κ c b e e') (i : Nat) (j : Option Nat) :
    (∃ er, counted e c b i j = .error er ∧ counted e' c b i j = .error er) ∨
    ∃ x p p', counted e c b i j = .ok (x, p) ∧ counted e' c b i j = .ok (scaleC (κ i j) x, p') ∧
      stateBins b = .ok (p.dims, p.edges) ∧ stateBins b = .ok (p'.dims, p'.edges) ∧ p.shape = p.edges.map (fun e => e.length - 1) ∧
      p'.shape = p'.edges.map (fun e => e.length - 1) ∧ p.data = pairsData (p.dims.headD "") x ∧
      p'.data = pairsData (p'.dims.headD "") (scaleC (κ i j) x) := by
  cases hck : Pairs.checkArgs b.mode b.edges b.Nmu b.pimax with
  | error er => left; exact ⟨.valueError, by unfold counted; simp [hck], by unfold counted; simp [hck]⟩
  | ok md =>
    cases hx : e.count c b i j with
    | error er =>
      have hx' : e'.count c b i j = .error er := by rw [h.2.1, hx]; rfl
      left
      exact ⟨er, by unfold counted; simp [hck, hx, Except.bind], by unfold counted; simp [hck, hx', Except.bind]⟩
    | ok x =>
      have hx' : e'.count c b i j = .ok (scaleC (κ i j) x) := by rw [h.2.1, hx]; rfl
      obtain ⟨p, h1, h2, h3, h4⟩ := counted_ok hck hx
      obtain ⟨p', h1', h2', h3', h4'⟩ := counted_ok hck hx'
      right
      exact ⟨x, p, p', h1, h1', h2, h2', h3, h3', h4, h4'⟩

theorem natural_scaled {κ : Nat → Option Nat → ℚ} {e e' : Env} (g : Args) (hm : g.bins.mode ≠ "angular")
    (h : ScaledCounts κ (counterOf g) g.bins e e') : (runNatural e' g).map (fun o => (o.corr, o.wp)) = (runNatural e g).map fun o => (o.corr, o.wp) := by
  unfold runNatural
  have hd : ∀ e : Env, naturalData e g = .ok (g.data1, g.data2) := fun e => by simp [naturalData, hm]
  simp only [hd, Except.bind]
  rcases counted_scaled h g.data1 g.data2 with ⟨er, h1, h2⟩ | ⟨x, p, p', h1, h2, h3, h4, h5, h6, h7, h8⟩
  · rw [h1, h2]
  · rw [h1, h2]
    simp only
    obtain ⟨hκ, hc, e1, e2, e3, e4, -⟩ := h
    have hN : (if (scaleC (κ g.data1 g.data2) x).isCross = true then g.data2.map fun c => (e'.csize c : ℚ) else none) =
        if x.isCross = true then g.data2.map fun c => (e.csize c : ℚ) else none := by rw [e1]; rfl
    have hf : filling e' g.bins.mode p'.edges (g.box.getD ((e'.boxOf g.data1).getD [0, 0, 0])) =
        filling e g.bins.mode p.edges (g.box.getD ((e.boxOf g.data1).getD [0, 0, 0])) := by
      have : p'.edges = p.edges := (corrOf_eq h3 h4 h5 h6 h7 h8 rfl []).2.2.1
      unfold filling
      rw [this, e2, e3, e4]
    rw [hN, hf, natural_scale _ _ _ _ _ (hκ _ _), e1]
    rw [(corrOf_eq h3 h4 h5 h6 h7 h8 rfl _).1, (corrOf_eq h3 h4 h5 h6 h7 h8 rfl []).2.1]
    cases analyticPairs p (Estim.analytic (filling e g.bins.mode p.edges (g.box.getD ((e.boxOf g.data1).getD [0, 0, 0]))) (e.csize g.data1)
        (if x.isCross = true then g.data2.map fun c => (e.csize c : ℚ) else none)) with
    | error er => rfl
    | ok rr =>
      simp only
      cases corrOf p _ with
      | error er => rfl
      | ok cf => rfl

theorem ls_rows_scaled (k1 k2 k3 k4 tDD tDR tRD tRR : ℚ) (h1 : k1 ≠ 0) (h2 : k2 ≠ 0) (h3 : k3 ≠ 0) (h4 : k4 ≠ 0) (a b c d : List (Nat × ℚ)) :
    (((a.map fun r => (r.1, k1 * r.2)).zip ((b.map fun r => (r.1, k2 * r.2)).zip ((c.map fun r => (r.1, k3 * r.2)).zip (d.map fun r => (r.1, k4 * r.2))))).map
      fun p => Estim.lsBin (k1 * tDD) (k2 * tDR) (k3 * tRD) (k4 * tRR) p.1.2 p.2.1.2 p.2.2.1.2 p.2.2.2) =
    (a.zip (b.zip (c.zip d))).map fun p => Estim.lsBin tDD tDR tRD tRR p.1.2 p.2.1.2 p.2.2.1.2 p.2.2.2 := by
  rw [List.zip_map, List.zip_map, List.zip_map, List.map_map]
  apply List.map_congr_left
  intro p _
  exact lsBin_scale k1 k2 k3 k4 tDD tDR tRD tRR _ _ _ _ _ h1 h2 h3 h4

theorem map_one_mul (l : List (Nat × ℚ)) : (l.map fun r => (r.1, 1 * r.2)) = l := by simp

theorem ls_scaled {κ : Nat → Option Nat → ℚ} {e e' : Env} (g : Args) (r1 : Nat)
    (h : ScaledCounts κ (counterOf g) g.bins e e') : (runLS e' g r1).map (fun o => (o.corr, o.wp)) = (runLS e g r1).map fun o => (o.corr, o.wp) := by
  have hκ := h.1
  -- the random pairs
  have hR : (∃ er, randomPairs e g r1 (g.randoms2.getD r1) = .error er ∧ randomPairs e' g r1 (g.randoms2.getD r1) = .error er) ∨
      ∃ (q : Estim.PC) (p p' : BS) (k : ℚ), k ≠ 0 ∧ randomPairs e g r1 (g.randoms2.getD r1) = .ok (q, p) ∧
        randomPairs e' g r1 (g.randoms2.getD r1) = .ok (⟨k * q.total, q.rows.map fun r => (r.1, k * r.2)⟩, p') ∧ p'.shape = p.shape := by
    unfold randomPairs
    cases hg : g.R1R2 with
    | some o => right; exact ⟨givenPC o, o.pairs, o.pairs, 1, one_ne_zero, rfl, by simp, rfl⟩
    | none =>
      rcases counted_scaled h r1 (some (g.randoms2.getD r1)) with ⟨er, h1, h2⟩ | ⟨x, p, p', h1, h2, h3, h4, h5, h6, h7, h8⟩
      · left; exact ⟨er, by simp [h1, Except.bind], by simp [h2, Except.bind]⟩
      · right
        refine ⟨x.pc, p, p', κ r1 (some (g.randoms2.getD r1)), hκ _ _, by simp [h1, Except.bind], ?_, (corrOf_eq h3 h4 h5 h6 h7 h8 rfl []).2.2.2.1⟩
        simp only [h2, Except.bind]
        rfl
  unfold runLS
  dsimp only
  rcases hR with ⟨er, h1, h2⟩ | ⟨q, p, p', k4, hk4, h1, h2, hsh⟩
  · rw [h1, h2]; rfl
  rw [h1, h2]
  simp only [Except.bind]
  rcases counted_scaled h g.data1 g.data2 with ⟨er, h1, h2⟩ | ⟨x, d, d', h1, h2, h3, h4, h5, h6, h7, h8⟩
  · rw [h1, h2]
  rw [h1, h2]
  simp only
  rcases counted_scaled h g.data1 (some (g.randoms2.getD r1)) with ⟨er, k1, k2⟩ | ⟨y, f, f', k1, k2, k3, k4', k5, k6, k7, k8⟩
  · rw [k1, k2]
  rw [k1, k2]
  simp only
  have hS : (∃ er, secondPairs e g r1 (y, f) = .error er ∧ secondPairs e' g r1 (scaleC (κ g.data1 (some (g.randoms2.getD r1))) y, f') = .error er) ∨
      ∃ (z : Count) (s s' : BS) (k : ℚ), k ≠ 0 ∧ secondPairs e g r1 (y, f) = .ok (z, s) ∧
        secondPairs e' g r1 (scaleC (κ g.data1 (some (g.randoms2.getD r1))) y, f') = .ok (scaleC k z, s') := by
    unfold secondPairs
    cases hd : g.data2 with
    | none => right; exact ⟨y, f, f', _, hκ _ _, rfl, rfl⟩
    | some d =>
      rcases counted_scaled h d (some r1) with ⟨er, l1, l2⟩ | ⟨x, p, p', l1, l2, -⟩
      · left; exact ⟨er, l1, l2⟩
      · right; exact ⟨x, p, p', _, hκ _ _, l1, l2⟩
  rcases hS with ⟨er, l1, l2⟩ | ⟨z, s, s', k3', hk3, l1, l2⟩
  · rw [l1, l2]
  rw [l1, l2]
  simp only
  have hc := corrOf_eq h3 h4 h5 h6 h7 h8 rfl
  rw [hsh, (hc []).2.2.2.1]
  by_cases hne : p.shape ≠ d.shape
  · rw [if_pos hne, if_pos hne]
  · rw [if_neg hne, if_neg hne]
    have hrows := ls_rows_scaled (κ g.data1 g.data2) (κ g.data1 (some (g.randoms2.getD r1))) k3' k4 x.total y.total z.total q.total (hκ _ _) (hκ _ _)
      hk3 hk4 x.rows y.rows z.rows q.rows
    have e0 : ((scaleC (κ g.data1 g.data2) x).rows.zip ((scaleC (κ g.data1 (some (g.randoms2.getD r1))) y).rows.zip ((scaleC k3' z).rows.zip
        (q.rows.map fun r => (r.1, k4 * r.2))))).map (fun p => Estim.lsBin (scaleC (κ g.data1 g.data2) x).total
          (scaleC (κ g.data1 (some (g.randoms2.getD r1))) y).total (scaleC k3' z).total (k4 * q.total) p.1.2 p.2.1.2 p.2.2.1.2 p.2.2.2) =
      (x.rows.zip (y.rows.zip (z.rows.zip q.rows))).map fun p => Estim.lsBin x.total y.total z.total q.total p.1.2 p.2.1.2 p.2.2.1.2 p.2.2.2 := hrows
    rw [e0, (hc _).1]
    cases corrOf d _ with
    | error er => rfl
    | ok cf => rfl

/-- The correlation function and `wp`, or the error, do not depend on the units of the counts. -/
theorem new_scaled {κ : Nat → Option Nat → ℚ} {e e' : Env} (g : Args) (hm : isAnalytic g = true → g.bins.mode ≠ "angular")
    (h : ScaledCounts κ (counterOf g) g.bins e e') : outcome (new e' g) = outcome (new e g) := by
  have hb : (runBase e' g).map (fun o => (o.corr, o.wp)) = (runBase e g).map fun o => (o.corr, o.wp) := by
    unfold runBase
    split
    · rename_i ha
      exact natural_scaled g (hm ha) h
    · split
      · rfl
      · exact ls_scaled g _ h
  obtain ⟨-, -, -, -, -, -, e5, e6⟩ := h
  unfold new outcome
  have hw : ∀ c, computeWp e' c = computeWp e c := by
    intro c; unfold computeWp; rw [e5, e6]
  cases h1 : runBase e g with
  | error er =>
    rw [h1] at hb
    cases h2 : runBase e' g with
    | error er' => rw [h2] at hb; cases hb; rfl
    | ok o' => rw [h2] at hb; cases hb
  | ok o =>
    rw [h1] at hb
    cases h2 : runBase e' g with
    | error er' => rw [h2] at hb; cases hb
    | ok o' =>
      rw [h2] at hb
      simp only [Except.map, Except.ok.injEq, Prod.mk.injEq] at hb
      obtain ⟨c1, c2⟩ := hb
      simp only [Except.bind]
      by_cases hp : g.bins.mode = "projected"
      · rw [if_pos hp, if_pos hp, c1, hw]
        cases computeWp e o.corr with
        | error er => rfl
        | ok w => simp only [Except.map, c1]
      · rw [if_neg hp, if_neg hp]
        simp only [Except.map, c1, c2]

/-! ### The unit of the weights of each catalog -/

/-- The weights of a catalog times a number. -/
def Cat.times (k : ℚ) (c : Cat) : Cat := { c with rows := c.rows.map fun l => l.map fun p => { p with w := k * p.w } }

theorem times_all (k : ℚ) (c : Cat) : (c.times k).all = c.all.map fun p => { p with w := k * p.w } := by
  unfold Cat.times Cat.all
  rw [List.map_flatten]

theorem sum_mul {A : Type} (k : ℚ) (F : A → ℚ) (l : List A) : (l.map fun a => k * F a).sum = k * (l.map F).sum := by
  induction l with
  | nil => simp
  | cons a l ih => simp [ih, mul_add]

theorem tallyS_times {A : Type} (f : A → A → Option Nat) (g : A → A → ℚ) (k : ℚ) (X Y : List A) (n : Nat) :
    tallyS f (fun a c => k * g a c) X Y n = k * tallyS f g X Y n := by
  unfold tallyS
  rw [← sum_mul]
  congr 1
  apply List.map_congr_left
  intro a _
  rw [← sum_mul]
  congr 1
  apply List.map_congr_left
  intro c _
  split <;> ring

theorem tallyN_map {A : Type} (f : A → A → Option Nat) (φ ψ : A → A) (X Y : List A) (n : Nat) (h : ∀ a c, f (φ a) (ψ c) = f a c) :
    tallyN f (X.map φ) (Y.map ψ) n = tallyN f X Y n := by
  unfold tallyN
  rw [List.map_map]
  congr 1
  apply List.map_congr_left
  intro a _
  simp only [Function.comp, List.countP_map]
  apply List.countP_congr
  intro c _
  simp [h]

theorem tallyS_map {A : Type} (f : A → A → Option Nat) (g g' : A → A → ℚ) (φ ψ : A → A) (X Y : List A) (n : Nat) (h : ∀ a c, f (φ a) (ψ c) = f a c)
    (hg : ∀ a c, g' (φ a) (ψ c) = g a c) : tallyS f g' (X.map φ) (Y.map ψ) n = tallyS f g X Y n := by
  unfold tallyS
  rw [List.map_map]
  congr 1
  apply List.map_congr_left
  intro a _
  simp only [Function.comp, List.map_map]
  congr 1
  apply List.map_congr_left
  intro c _
  simp [Function.comp, h, hg]

theorem direct_times (root : ℚ → ℚ) (los : Int) (periodic : Bool) (box : Pos) (b : PcfObj.Bins) (X : List Part) (Y : Option (List Part)) (same : Bool)
    (k k' : ℚ) (hs : Y = none ∨ same = true → k' = k) :
    direct root los periodic box b (X.map fun p => { p with w := k * p.w }) (Y.map fun Y => Y.map fun p => { p with w := k' * p.w }) same =
      scaleC (k * k') (direct root los periodic box b X Y same) := by
  have hg : (Y.map fun Y => Y.map fun p : Part => { p with w := k' * p.w }).getD (X.map fun p : Part => { p with w := k * p.w }) =
      (Y.getD X).map fun p : Part => { p with w := k' * p.w } := by
    cases Y with
    | none => rw [hs (.inl rfl)]; rfl
    | some _ => rfl
  have ht : total (X.map fun p : Part => { p with w := k * p.w }) (if same then none else (Y.map fun Y => Y.map fun p => { p with w := k' * p.w })) =
      k * k' * total X (if same then none else Y) := by
    have e1 : ∀ (k : ℚ) (l : List Part), ((l.map fun p : Part => { p with w := k * p.w }).map Part.w).sum = k * (l.map Part.w).sum := by
      intro k l; rw [List.map_map, ← sum_mul]; rfl
    have e2 : ((X.map fun p : Part => { p with w := k * p.w }).map fun p => p.w ^ 2).sum = k ^ 2 * (X.map fun p => p.w ^ 2).sum := by
      rw [List.map_map, ← sum_mul]
      congr 1
      apply List.map_congr_left
      intro p _
      simp only [Function.comp]; ring
    by_cases hsame : same = true
    · rw [if_pos hsame, if_pos hsame]
      unfold total
      simp only [Option.elim_none]
      rw [e1, e2, hs (.inr hsame)]; ring
    · rw [if_neg hsame, if_neg hsame]
      cases Y with
      | none =>
        unfold total
        simp only [Option.map_none, Option.elim_none]
        rw [e1, e2, hs (.inl rfl)]; ring
      | some y =>
        unfold total
        simp only [Option.map_some, Option.elim_some]
        rw [e1, e1]; ring
  unfold direct scaleC tally
  rw [hg, ht]
  have hN := fun n => tallyN_map (bin0 los periodic box b) (fun p : Part => { p with w := k * p.w }) (fun p : Part => { p with w := k' * p.w }) X (Y.getD X) n
    (fun a c => rfl)
  have hS := fun n => tallyS_map (bin0 los periodic box b) (sep0 root los periodic box b) (sep0 root los periodic box b)
    (fun p : Part => { p with w := k * p.w }) (fun p : Part => { p with w := k' * p.w }) X (Y.getD X) n (fun a c => rfl) (fun a c => rfl)
  have hW := fun n => tallyS_map (bin0 los periodic box b) (fun a c => k * k' * (a.w * c.w)) (fun a c => a.w * c.w)
    (fun p : Part => { p with w := k * p.w }) (fun p : Part => { p with w := k' * p.w }) X (Y.getD X) n (fun a c => rfl)
    (fun a c => by simp only; ring)
  simp only [hN, hS, hW, tallyS_times]
  congr 1
  · cases Y <;> rfl
  · simp [Function.comp_def]

/-- C140: the correlation function and `wp` do not depend on the unit of the weights of any catalog, of data or of randoms. -/
theorem tpcf_weights {P : Nat} (C : Nat → Cat) (hP : ∀ i, (C i).rows.length = P) (k : Nat → ℚ) (hk : ∀ i, k i ≠ 0) (E : Env) (root : ℚ → ℚ)
    (mach : Nat → Option Nat → Mach) (hm : ∀ i j, (mach i j).Good P) (kw : Kw) (g : Args) (hs : g.kind = .sim) (ha : g.bins.mode ≠ "angular") :
    outcome (tpcf E root mach kw (fun i => (C i).times (k i)) g) = outcome (tpcf E root mach kw C g) := by
  unfold tpcf
  apply new_scaled (κ := fun i j => k i * k (j.getD i)) g (fun _ => ha)
  refine ⟨fun i j => mul_ne_zero (hk _) (hk _), fun i j => ?_, ?_, rfl, rfl, rfl, rfl, rfl⟩
  · have hct : counterOf g = .box := by simp [counterOf, periodicOf, hs]
    unfold envOf
    simp only [hct, ha, ne_eq, not_false_eq_true, and_self, if_true]
    cases boxArg g.box with
    | error e => rfl
    | ok box =>
      simp only [Except.bind]
      rw [count_eq root (mach i j) P (hm i j) kw.showProgress kw.los _ box g.bins ha ((C i).times (k i)) _ _ (by simp [Cat.times, hP]),
        count_eq root (mach i j) P (hm i j) kw.showProgress kw.los _ box g.bins ha (C i) _ _ (hP i)]
      have e1 : (j.map fun i => (C i).times (k i)).getD ((C i).times (k i)) = (C (j.getD i)).times (k (j.getD i)) := by cases j <;> rfl
      have e2 : (j.map C).getD (C i) = C (j.getD i) := by cases j <;> rfl
      have e3 : ∀ (los : BoxPairs.Los) (per : Bool) (b : PcfObj.Bins) (c d : Cat) (u v : ℚ), checks los per box b (c.times u) (d.times v) = checks los per box b c d :=
        fun _ _ _ _ _ _ _ => rfl
      rw [e1, e2, e3]
      cases checks kw.los ((periodicOf g).getD false) box g.bins (C i) (C (j.getD i)) with
      | error e => rfl
      | ok lb =>
        simp only [Except.bind]
        split
        · rfl
        · simp only [Except.map]
          congr 1
          have e4 : (j.map fun i => (C i).times (k i)).map Cat.all = (j.map fun j => (C j).all).map fun Y => Y.map fun p => { p with w := k (j.getD i) * p.w } := by
            cases j with
            | none => rfl
            | some j => simp [times_all]
          have e5 : (j.map C).map Cat.all = j.map fun j => (C j).all := by cases j <;> rfl
          rw [e4, e5, times_all]
          apply direct_times
          rintro (h | h)
          · cases j with
            | none => rfl
            | some j => cases h
          · have : j = some i := by simpa using h
            rw [this]; rfl
  · unfold envOf
    simp only
    funext i
    rw [csize_eq, csize_eq, times_all, List.length_map]

end NBK.BoxTpcf
