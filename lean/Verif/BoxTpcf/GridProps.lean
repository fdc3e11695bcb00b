import Verif.BoxTpcf.BinProps
import Verif.BoxTpcf.CrossProps

set_option linter.unusedSimpArgs false

/-!
# Values of the correlation functions of the modes '2d' and 'projected' in a periodic cube
-/
namespace NBK.BoxTpcf
open NBK PcfObj

/-- The natural estimator in a bin `k` that fills a fraction `f` of the volume, in any mode but 'angular'. -/
theorem natural_bin (e : Env) (g : Args) (hk : g.kind = .sim) (hp : g.periodic = true) (hr : g.randoms1 = none) (ha : g.bins.mode ≠ "angular")
    (o : Tpcf) (h : new e g = .ok o) (x : PcfObj.Count) (hx : e.count .box g.bins g.data1 g.data2 = .ok x) (de : List String × List (List ℚ))
    (hst : stateBins g.bins = .ok de) (k n : Nat) (w f : ℚ) (h3 : x.rows[k]? = some (n, w))
    (hf : (filling e g.bins.mode de.2 (g.box.getD ((e.boxOf g.data1).getD [0, 0, 0])))[k]? = some f) (T S : ℚ)
    (hTS : (T, S) = if x.isCross then ((e.csize g.data1 : ℚ) * ((g.data2.map fun c => (e.csize c : ℚ)).getD 0) * (1 / 2), (e.csize g.data1 : ℚ) * ((g.data2.map fun c => (e.csize c : ℚ)).getD 0))
      else ((e.csize g.data1 : ℚ) * ((e.csize g.data1 : ℚ) - 1) * (1 / 2), (e.csize g.data1 : ℚ) ^ 2)) (hcr : x.isCross = true → g.data2.isSome = true)
    (ht : x.total ≠ 0) (hff : S * f ≠ 0) :
    (columnOf o.corr "corr")[k]? = some (.fin (w * (T / x.total) / (S * f) - 1)) := by
  obtain ⟨r, h0, -, -, -, -, -, hcorr, -⟩ := run_of_new h
  rw [hcorr]
  unfold runBase at h0
  rw [if_pos (by simp [isAnalytic, periodicOf, hk, hp, hr])] at h0
  have hct : counterOf g = .box := by simp [counterOf, periodicOf, hk]
  unfold runNatural at h0
  have hnd : naturalData e g = .ok (g.data1, g.data2) := by simp [naturalData, ha]
  simp only [hnd, Except.bind, hct] at h0
  cases h2' : counted e .box g.bins g.data1 g.data2 with
  | error _ => simp [h2', Except.bind] at h0
  | ok dd =>
    obtain ⟨md, de', k1, k2, k3, k4, -⟩ := counted_std h2'
    rw [hx] at k4
    obtain rfl := Except.ok.inj k4
    rw [hst] at k2
    obtain rfl := Except.ok.inj k2
    simp only [h2', Except.bind] at h0
    split at h0
    · cases h0
    split at h0
    · cases h0
    rename_i cf hcf
    obtain ⟨-, c2, -⟩ := corr_std k3 hcf
    rw [← Except.ok.inj h0]
    dsimp only
    rw [columnOf, c2]
    simp only [List.find?_cons, decide_true, Option.elim_some, List.getElem?_map, k3.edges]
    have hana : ∀ ff : List ℚ, Estim.analytic ff (e.csize g.data1) (if dd.1.isCross = true then g.data2.map fun c => (e.csize c : ℚ) else none) = (T, ff.map fun f => S * f) := by
      intro ff
      unfold Estim.analytic
      cases hc : dd.1.isCross with
      | false =>
        rw [hc, if_neg (by decide)] at hTS
        obtain ⟨rfl, rfl⟩ := Prod.mk.inj hTS
        rfl
      | true =>
        rw [hc, if_pos rfl] at hTS
        cases hd : g.data2 with
        | none => rw [hd] at hcr; exact absurd (hcr hc) (by decide)
        | some c =>
          rw [hd] at hTS
          obtain ⟨rfl, rfl⟩ := Prod.mk.inj hTS
          rfl
    unfold Estim.natural
    rw [hana]
    dsimp only
    have hz : (dd.1.pc.rows.zip ((filling e g.bins.mode de.2 (g.box.getD ((e.boxOf g.data1).getD [0, 0, 0]))).map fun f => S * f))[k]? = some ((n, w), S * f) :=
      List.getElem?_zip_eq_some.mpr ⟨h3, by rw [List.getElem?_map, hf]; rfl⟩
    rw [List.getElem?_map, hz]
    simp only [Option.map_some, Estim.fdiv, Count.pc, ht, if_false, bind, Option.bind, pure]
    rw [if_neg hff]
    rfl

theorem flatten_get {A : Type} (M : List (List A)) (n : Nat) (h : ∀ r ∈ M, r.length = n) (i j : Nat) (r : List A) (hr : M[i]? = some r) (hj : j < n) :
    M.flatten[i * n + j]? = r[j]? := by
  induction M generalizing i with
  | nil => cases hr
  | cons m M ih =>
    have hm := h m (by simp)
    rw [List.flatten_cons]
    cases i with
    | zero =>
      obtain rfl : m = r := by simpa using hr
      rw [Nat.zero_mul, Nat.zero_add, List.getElem?_append_left (by omega)]
    | succ i =>
      have e1 : (i + 1) * n + j - m.length = i * n + j := by rw [hm, Nat.add_mul]; omega
      rw [List.getElem?_append_right (by rw [hm, Nat.add_mul]; omega), e1]
      exact ih (fun r hr => h r (by simp [hr])) i (by simpa using hr)

theorem outerDiff_bin (vol : ℚ) (f m : List ℚ) (n i j : Nat) (hm : m.length = n + 1) (hj : j < n) (a b c d : ℚ) (h1 : f[i]? = some a) (h2 : f[i + 1]? = some b)
    (h3 : m[j]? = some c) (h4 : m[j + 1]? = some d) : (Estim.outerDiff vol f m).flatten[i * n + j]? = some ((b - a) * (d - c) / vol) := by
  rw [flatten_get _ n ?_ i j _ (Estim.outerDiff_get vol f m i a b h1 h2) hj]
  · rw [List.getElem?_map, Estim.diff_getElem? m j c d h3 h4]
    rfl
  · intro r hr
    unfold Estim.outerDiff at hr
    simp only [List.mem_map] at hr
    obtain ⟨row, hrow, rfl⟩ := hr
    have hlen : row.length = n + 1 := by
      obtain ⟨k, hk, rfl⟩ := List.getElem_of_mem hrow
      simp [hm]
    simp [Estim.diff, hlen]

theorem linspace_get (c : ℚ) (n i : Nat) (hi : i < n + 1) : (linspace 0 c (n + 1))[i]? = some (c * i / n) := by
  unfold linspace
  rw [List.getElem?_map, List.getElem?_range hi]
  simp only [Option.map_some, Nat.add_sub_cancel, zero_add, sub_zero]
  congr 1
  ring

/-- What is asked of a correlation function without randoms in a periodic cube, in any mode but 'angular': arguments that are accepted, and no separation of more than
half the cube. -/
structure InCube (C : Nat → Cat) (kw : Kw) (g : Args) (L : ℚ) (l : Int) : Prop where
  kind : g.kind = .sim
  per : g.periodic = true
  rand : g.randoms1 = none
  mode : g.bins.mode ≠ "angular"
  args : ∃ md, Pairs.checkArgs g.bins.mode g.bins.edges g.bins.Nmu g.bins.pimax = .ok md
  nmu : g.bins.Nmu ≠ some 0
  le : ∀ e ∈ g.bins.edges, e ≤ L / 2
  pile : ∀ p, g.bins.pimax = some p → p ≤ L / 2
  los : BoxPairs.parseLos kw.los = .ok (l, true)
  noArg : g.box = none
  side : 0 < L
  box1 : (C g.data1).box = some ⟨L, L, L⟩
  box2 : ∀ d, g.data2 = some d → (C d).box = some ⟨L, L, L⟩

theorem InCube.pos {C : Nat → Cat} {kw : Kw} {g : Args} {L : ℚ} {l : Int} (h : InCube C kw g L l) : ∀ e ∈ g.bins.edges, 0 < e :=
  ((Pairs.checkArgs_iff _ _ _ _).mp h.args).2.2.1

theorem InCube.checks {C : Nat → Cat} {kw : Kw} {g : Args} {L : ℚ} {l : Int} (h : InCube C kw g L l) :
    checks kw.los true none g.bins (C g.data1) ((g.data2.map C).getD (C g.data1)) = .ok (l, ⟨L, L, L⟩) := by
  have h2 : ((g.data2.map C).getD (C g.data1)).box = some ⟨L, L, L⟩ := by
    cases hd : g.data2 with
    | none => exact h.box1
    | some d => exact h.box2 d hd
  obtain ⟨md, hmd⟩ := h.args
  have hL := h.side
  have hbx : boxSize (C g.data1) ((g.data2.map C).getD (C g.data1)) none = .ok ⟨L, L, L⟩ := by
    unfold boxSize
    rw [h2, h.box1]
    simp [hL.ne']
  unfold BoxTpcf.checks
  rw [h.los]
  simp only
  rw [hbx]
  simp only [Except.bind]
  rw [hmd]
  simp only
  have ht : tooLarge ⟨L, L, L⟩ g.bins = false := by
    unfold tooLarge minSide
    simp only [min_self]
    have h1 := maxEdge_le g.bins.edges (L / 2) (by linarith) h.le
    have h3 : g.bins.pimax.getD 0 ≤ L / 2 := by
      cases hp : g.bins.pimax with
      | none => simp only [Option.getD_none]; linarith
      | some p => exact h.pile p hp
    rw [Bool.or_eq_false_iff]
    refine ⟨?_, ?_⟩
    · rw [decide_eq_false_iff_not]; linarith
    · rw [Bool.and_eq_false_iff]
      right
      rw [decide_eq_false_iff_not]; linarith
  simp [ht]

theorem InCube.count {P : Nat} {C : Nat → Cat} (hP : ∀ i, (C i).rows.length = P) {E : Env} {root : ℚ → ℚ} {mach : Nat → Option Nat → Mach}
    (hm : ∀ i j, (mach i j).Good P) {kw : Kw} {g : Args} {L : ℚ} {l : Int} (h : InCube C kw g L l) :
    (envOf E root mach kw C g).count .box g.bins g.data1 g.data2 =
      .ok (direct root l true ⟨L, L, L⟩ g.bins (C g.data1).all ((g.data2.map C).map Cat.all) (decide (g.data2 = some g.data1))) := by
  have ha := h.mode
  unfold envOf
  simp only [ha, ne_eq, not_false_eq_true, and_self, if_true, h.noArg, boxArg, Except.bind, periodicOf, h.kind, h.per, Option.getD_some]
  rw [count_eq root (mach g.data1 g.data2) P (hm _ _) _ _ _ none g.bins ha (C g.data1) _ _ (hP _), h.checks]
  simp [Except.bind, h.nmu]

/-- The sum of the weights of the pairs in a bin. -/
def pairsOf (R : Pos → Pos → Prop) [∀ p q, Decidable (R p q)] (X Y : List Part) : ℚ :=
  (X.map fun p => (Y.map fun q => if R p.pos q.pos then p.w * q.w else 0).sum).sum

theorem tally_of {los : Int} {L : ℚ} {b : PcfObj.Bins} (R : Pos → Pos → Prop) [∀ p q, Decidable (R p q)] (k : Nat)
    (hR : ∀ p q : Part, bin0 los true ⟨L, L, L⟩ b p q = some k ↔ R p.pos q.pos) (X Y : List Part) :
    tallyS (bin0 los true ⟨L, L, L⟩ b) (fun p q : Part => p.w * q.w) X Y k = pairsOf R X Y := by
  unfold tallyS pairsOf
  congr 1
  apply List.map_congr_left
  intro p _
  congr 1
  apply List.map_congr_left
  intro q _
  simp only [hR p q]

/-- The auto-correlation in a bin `k` of pairs `R` that fills a fraction `f` of the cube. -/
theorem auto_bin {P : Nat} {C : Nat → Cat} (hP : ∀ i, (C i).rows.length = P) {E : Env} {root : ℚ → ℚ} {mach : Nat → Option Nat → Mach}
    (hm : ∀ i j, (mach i j).Good P) {kw : Kw} {g : Args} {L : ℚ} {l : Int} (h : InCube C kw g L l) (hd : g.data2 = none) (X : List Part) (hX : X = (C g.data1).all)
    (W : ℚ) (hW : W = (X.map Part.w).sum ^ 2 - (X.map fun p => p.w ^ 2).sum) (hW0 : W ≠ 0) (N : ℚ) (hN : N = X.length)
    (o : Tpcf) (ho : tpcf E root mach kw C g = .ok o) (de : List String × List (List ℚ)) (hst : stateBins g.bins = .ok de) (k : Nat) (hk : k < nbins g.bins)
    (R : Pos → Pos → Prop) [∀ p q, Decidable (R p q)] (hR : ∀ p q : Part, bin0 l true ⟨L, L, L⟩ g.bins p q = some k ↔ R p.pos q.pos) (f : ℚ) (hf0 : f ≠ 0)
    (hf : (filling (envOf E root mach kw C g) g.bins.mode de.2 [L, L, L])[k]? = some f) :
    (columnOf o.corr "corr")[k]? = some (.fin (pairsOf R X X / W / f * ((N - 1) / N) - 1)) := by
  have hc := h.count hP (E := E) (root := root) hm
  have hN0 : N ≠ 0 := by
    rintro rfl
    have : X.length = 0 := by exact_mod_cast hN.symm
    rw [List.length_eq_zero_iff] at this
    rw [this] at hW
    simp at hW
    exact hW0 hW
  have ht : (direct root l true ⟨L, L, L⟩ g.bins (C g.data1).all ((g.data2.map C).map Cat.all) (decide (g.data2 = some g.data1))).total = 1 / 2 * W := by
    simp only [hd, direct, total, ← hX, Option.map_none]
    simp only [reduceCtorEq, decide_false, Bool.false_eq_true, if_false, Option.elim_none]
    rw [← hW]
  have hcs : ((envOf E root mach kw C g).csize g.data1 : ℚ) = N := by
    simp only [envOf]
    rw [csize_all, ← hX, hN]
  have key := natural_bin (envOf E root mach kw C g) g h.kind h.per h.rand h.mode o ho _ hc de hst k (tallyN (bin0 l true ⟨L, L, L⟩ g.bins) X X k) (pairsOf R X X) f (by
      simp only [hd, Option.map_none, direct, tally, Option.getD_none]
      rw [List.getElem?_map, List.getElem?_range hk, ← hX, Option.map_some, tally_of R k hR]) (by
      rw [h.noArg]
      simp only [envOf, h.box1, ofPos, Option.map_some, Option.getD_some, Option.getD_none]
      exact hf) (N * (N - 1) * (1 / 2)) (N ^ 2) (by
      rw [hcs]
      simp [hd, direct]) (by simp [hd, direct]) (by
      rw [ht]
      exact mul_ne_zero (by norm_num) hW0) (mul_ne_zero (pow_ne_zero 2 hN0) hf0)
  rw [key, ht]
  congr 3
  generalize pairsOf R X X = p
  field_simp
  try ring

/-- The cross-correlation in a bin `k` of pairs `R` that fills a fraction `f` of the cube. -/
theorem cross_bin {P : Nat} {C : Nat → Cat} (hP : ∀ i, (C i).rows.length = P) {E : Env} {root : ℚ → ℚ} {mach : Nat → Option Nat → Mach}
    (hm : ∀ i j, (mach i j).Good P) {kw : Kw} {g : Args} {L : ℚ} {l : Int} (h : InCube C kw g L l) (d : Nat) (hd : g.data2 = some d) (hne : d ≠ g.data1)
    (X Y : List Part) (hX : X = (C g.data1).all) (hY : Y = (C d).all) (hX0 : (X.map Part.w).sum ≠ 0) (hY0 : (Y.map Part.w).sum ≠ 0)
    (o : Tpcf) (ho : tpcf E root mach kw C g = .ok o) (de : List String × List (List ℚ)) (hst : stateBins g.bins = .ok de) (k : Nat) (hk : k < nbins g.bins)
    (R : Pos → Pos → Prop) [∀ p q, Decidable (R p q)] (hR : ∀ p q : Part, bin0 l true ⟨L, L, L⟩ g.bins p q = some k ↔ R p.pos q.pos) (f : ℚ) (hf0 : f ≠ 0)
    (hf : (filling (envOf E root mach kw C g) g.bins.mode de.2 [L, L, L])[k]? = some f) :
    (columnOf o.corr "corr")[k]? = some (.fin (pairsOf R X Y / ((X.map Part.w).sum * (Y.map Part.w).sum) / f - 1)) := by
  have hc := h.count hP (E := E) (root := root) hm
  have hdec : decide (g.data2 = some g.data1) = false := by simp [hd, hne]
  have len : ∀ Z : List Part, (Z.map Part.w).sum ≠ 0 → (Z.length : ℚ) ≠ 0 := by
    intro Z hZ h0
    have : Z.length = 0 := by exact_mod_cast h0
    rw [List.length_eq_zero_iff] at this
    rw [this] at hZ
    exact hZ rfl
  have ht : (direct root l true ⟨L, L, L⟩ g.bins (C g.data1).all ((g.data2.map C).map Cat.all) (decide (g.data2 = some g.data1))).total =
      1 / 2 * (X.map Part.w).sum * (Y.map Part.w).sum := by
    rw [hdec]
    simp only [hd, Option.map_some, direct, total, ← hX, ← hY, Bool.false_eq_true, if_false, Option.elim_some]
  have hcs : ((envOf E root mach kw C g).csize g.data1 : ℚ) = X.length := by
    simp only [envOf]
    rw [csize_all, ← hX]
  have hcs2 : ((envOf E root mach kw C g).csize d : ℚ) = Y.length := by
    simp only [envOf]
    rw [csize_all, ← hY]
  have key := natural_bin (envOf E root mach kw C g) g h.kind h.per h.rand h.mode o ho _ hc de hst k (tallyN (bin0 l true ⟨L, L, L⟩ g.bins) X Y k) (pairsOf R X Y) f (by
      simp only [hd, Option.map_some, direct, tally, Option.getD_some]
      rw [List.getElem?_map, List.getElem?_range hk, ← hX, ← hY, Option.map_some, tally_of R k hR]) (by
      rw [h.noArg]
      simp only [envOf, h.box1, ofPos, Option.map_some, Option.getD_some, Option.getD_none]
      exact hf) ((X.length : ℚ) * Y.length * (1 / 2)) ((X.length : ℚ) * Y.length) (by
      rw [hcs, hdec]
      simp only [hd, direct, Option.map_some, hcs2, Option.isSome_some, Bool.not_false, Bool.and_true, if_true, Option.getD_some]) (by simp [hd, direct]) (by
      rw [ht]
      exact mul_ne_zero (mul_ne_zero (by norm_num) hX0) hY0) (mul_ne_zero (mul_ne_zero (len X hX0) (len Y hY0)) hf0)
  rw [key, ht]
  congr 3
  have l1 := len X hX0
  have l2 := len Y hY0
  generalize pairsOf R X Y = p
  generalize (X.length : ℚ) = n1 at l1
  generalize (Y.length : ℚ) = n2 at l2
  generalize (X.map Part.w).sum = w1 at hX0
  generalize (Y.map Part.w).sum = w2 at hY0
  field_simp
  try ring

/-- Distances in `[a, b)` and `mu` in `[u, v)`. -/
def Wedge (D A : Pos → Pos → ℚ) (a b u v : ℚ) (p q : Pos) : Prop :=
  (a ^ 2 ≤ D p q ∧ D p q < b ^ 2) ∧ u ^ 2 ≤ A p q / D p q ∧ A p q / D p q < v ^ 2

instance (D A : Pos → Pos → ℚ) (a b u v : ℚ) (p q : Pos) : Decidable (Wedge D A a b u v p q) := by unfold Wedge; infer_instance

/-- Distances across the line of sight in `[a, b)` and along it in `[u, v)`. -/
def Ring (D A : Pos → Pos → ℚ) (a b u v : ℚ) (p q : Pos) : Prop :=
  (a ^ 2 ≤ D p q - A p q ∧ D p q - A p q < b ^ 2) ∧ u ^ 2 ≤ A p q ∧ A p q < v ^ 2

instance (D A : Pos → Pos → ℚ) (a b u v : ℚ) (p q : Pos) : Decidable (Ring D A a b u v p q) := by unfold Ring; infer_instance

theorem bin_lt (m n i j : Nat) (hi : i < m) (hj : j < n) : i * n + j < m * n := by
  have : (i + 1) * n ≤ m * n := Nat.mul_le_mul_right n hi
  rw [Nat.add_mul, Nat.one_mul] at this
  omega

theorem lt_of_next {es : List ℚ} {i : Nat} {b : ℚ} (h : es[i + 1]? = some b) : i < es.length - 1 := by
  rw [List.getElem?_eq_some_iff] at h
  have := h.1
  omega

/-- The fraction of the cube that a bin of the mode '2d' fills. -/
theorem fill_2d (e : Env) (L : ℚ) (b : PcfObj.Bins) (hm : b.mode = "2d") (n : Nat) (hn : b.Nmu = some n) (i j : Nat) (hj : j < n) (a c : ℚ)
    (h1 : b.edges[i]? = some a) (h2 : b.edges[i + 1]? = some c) :
    ∃ de, stateBins b = .ok de ∧ (filling e b.mode de.2 [L, L, L])[i * n + j]? = some (4 / 3 * e.pi * (c ^ 3 - a ^ 3) / n / L ^ 3) := by
  have n12 : ¬ ("2d" = "1d") := by decide
  refine ⟨(["r", "mu"], [b.edges, linspace 0 1 (n + 1)]), by simp [stateBins, hm, n12, hn], ?_⟩
  unfold filling
  rw [if_neg (by rw [hm]; exact n12), if_pos hm]
  simp only [List.headD_cons]
  unfold Estim.ff2d
  have hg : (([b.edges, linspace 0 1 (n + 1)] : List (List ℚ)).getD 1 []) = linspace 0 1 (n + 1) := rfl
  rw [hg, outerDiff_bin _ _ (linspace 0 1 (n + 1)) n i j (by simp [linspace]) hj (2 / 3 * e.pi * a ^ 3 * 2) (2 / 3 * e.pi * c ^ 3 * 2) (1 * j / n) (1 * (j + 1 : Nat) / n)
    (by rw [List.getElem?_map, h1]; rfl) (by rw [List.getElem?_map, h2]; rfl) (linspace_get 1 n j (by omega)) (linspace_get 1 n (j + 1) (by omega))]
  congr 1
  simp only [List.prod_cons, List.prod_nil]
  push_cast
  ring

/-- The fraction of the cube that a bin of the mode 'projected' fills. -/
theorem fill_projected (e : Env) (L : ℚ) (b : PcfObj.Bins) (hm : b.mode = "projected") (pm : ℚ) (hp : b.pimax = some pm) (hp1 : 1 ≤ pm) (n : Nat) (hn : n = ⌊pm⌋.toNat)
    (i j : Nat) (hj : j < n) (a c : ℚ) (h1 : b.edges[i]? = some a) (h2 : b.edges[i + 1]? = some c) :
    ∃ de, stateBins b = .ok de ∧ (filling e b.mode de.2 [L, L, L])[i * n + j]? = some (e.pi * (c ^ 2 - a ^ 2) * (2 * (pm / n)) / L ^ 3) := by
  have n1 : ¬ ("projected" = "1d") := by decide
  have n2 : ¬ ("projected" = "2d") := by decide
  have hfl : ⌊pm + 1⌋.toNat = n + 1 := by
    rw [hn]
    exact PcfObj.floor_succ pm (by linarith)
  refine ⟨(["rp", "pi"], [b.edges, linspace 0 pm (n + 1)]), by
    unfold stateBins
    rw [if_neg (by rw [hm]; exact n1), if_neg (by rw [hm]; exact n2), if_pos hm, hp]
    simp only [hfl], ?_⟩
  unfold filling
  rw [if_neg (by rw [hm]; exact n1), if_neg (by rw [hm]; exact n2), if_pos hm]
  simp only [List.headD_cons]
  unfold Estim.ffProj
  have hg : (([b.edges, linspace 0 pm (n + 1)] : List (List ℚ)).getD 1 []) = linspace 0 pm (n + 1) := rfl
  rw [hg, outerDiff_bin _ _ ((linspace 0 pm (n + 1)).map fun x => 2 * x) n i j (by simp [linspace]) hj (e.pi * a ^ 2) (e.pi * c ^ 2) (2 * (pm * j / n)) (2 * (pm * (j + 1 : Nat) / n))
    (by rw [List.getElem?_map, h1]; rfl) (by rw [List.getElem?_map, h2]; rfl) (by rw [List.getElem?_map, linspace_get pm n j (by omega)]; rfl)
    (by rw [List.getElem?_map, linspace_get pm n (j + 1) (by omega)]; rfl)]
  congr 1
  simp only [List.prod_cons, List.prod_nil]
  push_cast
  ring

theorem cube_ne {a b : ℚ} (ha : 0 < a) (hb : 0 < b) (hab : a ≠ b) (k : Nat) (hk : k ≠ 0) : b ^ k - a ^ k ≠ 0 := fun h0 =>
  hab ((pow_left_inj₀ hb.le ha.le hk).mp (by linarith : b ^ k = a ^ k)).symm

/-- C140: **the auto-correlation of the mode '2d'** in the bin of distances `[a, b)` and of `mu` in `[j/n, (j+1)/n)`: the pairs there, as a fraction of all pairs, over the part `1/n` of
the volume of the shell, as a fraction of the cube, times `(N-1)/N`, less one. -/
theorem auto_2d {P : Nat} {C : Nat → Cat} (hP : ∀ i, (C i).rows.length = P) {E : Env} {root : ℚ → ℚ} {mach : Nat → Option Nat → Mach}
    (hm : ∀ i j, (mach i j).Good P) {kw : Kw} {g : Args} {L : ℚ} {l : Int} (h : InCube C kw g L l) (hmd : g.bins.mode = "2d") (n : Nat) (hn : g.bins.Nmu = some n) (hd : g.data2 = none)
    (hs : g.bins.edges.Pairwise (· ≤ ·)) {D A : Pos → Pos → ℚ} (hD : IsDist2 L D) (hA : IsAlong L l A) (X : List Part) (hX : X = (C g.data1).all)
    (W : ℚ) (hW : W = (X.map Part.w).sum ^ 2 - (X.map fun p => p.w ^ 2).sum) (hW0 : W ≠ 0) (N : ℚ) (hN : N = X.length) (hpi : E.pi ≠ 0)
    (o : Tpcf) (ho : tpcf E root mach kw C g = .ok o) (i j : Nat) (hj : j < n) (a b : ℚ) (h1 : g.bins.edges[i]? = some a) (h2 : g.bins.edges[i + 1]? = some b) (hab : a ≠ b) :
    (columnOf o.corr "corr")[i * n + j]? =
      some (.fin (pairsOf (Wedge D A a b (j / n) ((j + 1) / n)) X X / W / (4 / 3 * E.pi * (b ^ 3 - a ^ 3) / n / L ^ 3) * ((N - 1) / N) - 1)) := by
  obtain ⟨de, hst, hf⟩ := fill_2d (envOf E root mach kw C g) L g.bins hmd n hn i j hj a b h1 h2
  have hpos0 : ∀ e ∈ g.bins.edges, 0 ≤ e := fun e he => (h.pos e he).le
  have hn0 : (n : ℚ) ≠ 0 := by exact_mod_cast (by omega : n ≠ 0)
  have h3 := cube_ne (h.pos a (List.mem_of_getElem? h1)) (h.pos b (List.mem_of_getElem? h2)) hab 3 (by norm_num)
  exact auto_bin hP hm h hd X hX W hW hW0 N hN o ho de hst (i * n + j) (by rw [(bins2_2d hmd hn).2.1]; exact bin_lt _ _ _ _ (lt_of_next h2) hj) _
    (fun p q => bin0_2d h.side hD hA g.bins hmd hn hpos0 hs p q i j hj a b h1 h2) _
    (div_ne_zero (div_ne_zero (mul_ne_zero (mul_ne_zero (by norm_num) hpi) h3) hn0) (pow_ne_zero 3 h.side.ne')) hf

/-- C140: **the cross-correlation of the mode '2d'**. -/
theorem cross_2d {P : Nat} {C : Nat → Cat} (hP : ∀ i, (C i).rows.length = P) {E : Env} {root : ℚ → ℚ} {mach : Nat → Option Nat → Mach}
    (hm : ∀ i j, (mach i j).Good P) {kw : Kw} {g : Args} {L : ℚ} {l : Int} (h : InCube C kw g L l) (hmd : g.bins.mode = "2d") (n : Nat) (hn : g.bins.Nmu = some n) (d : Nat) (hd : g.data2 = some d) (hne : d ≠ g.data1)
    (hs : g.bins.edges.Pairwise (· ≤ ·)) {D A : Pos → Pos → ℚ} (hD : IsDist2 L D) (hA : IsAlong L l A) (X Y : List Part) (hX : X = (C g.data1).all) (hY : Y = (C d).all)
    (hX0 : (X.map Part.w).sum ≠ 0) (hY0 : (Y.map Part.w).sum ≠ 0) (hpi : E.pi ≠ 0)
    (o : Tpcf) (ho : tpcf E root mach kw C g = .ok o) (i j : Nat) (hj : j < n) (a b : ℚ) (h1 : g.bins.edges[i]? = some a) (h2 : g.bins.edges[i + 1]? = some b) (hab : a ≠ b) :
    (columnOf o.corr "corr")[i * n + j]? =
      some (.fin (pairsOf (Wedge D A a b (j / n) ((j + 1) / n)) X Y / ((X.map Part.w).sum * (Y.map Part.w).sum) / (4 / 3 * E.pi * (b ^ 3 - a ^ 3) / n / L ^ 3) - 1)) := by
  obtain ⟨de, hst, hf⟩ := fill_2d (envOf E root mach kw C g) L g.bins hmd n hn i j hj a b h1 h2
  have hpos0 : ∀ e ∈ g.bins.edges, 0 ≤ e := fun e he => (h.pos e he).le
  have hn0 : (n : ℚ) ≠ 0 := by exact_mod_cast (by omega : n ≠ 0)
  have h3 := cube_ne (h.pos a (List.mem_of_getElem? h1)) (h.pos b (List.mem_of_getElem? h2)) hab 3 (by norm_num)
  exact cross_bin hP hm h d hd hne X Y hX hY hX0 hY0 o ho de hst (i * n + j) (by rw [(bins2_2d hmd hn).2.1]; exact bin_lt _ _ _ _ (lt_of_next h2) hj) _
    (fun p q => bin0_2d h.side hD hA g.bins hmd hn hpos0 hs p q i j hj a b h1 h2) _
    (div_ne_zero (div_ne_zero (mul_ne_zero (mul_ne_zero (by norm_num) hpi) h3) hn0) (pow_ne_zero 3 h.side.ne')) hf

/-- C140: a pair exactly along the line of sight, `mu = 1`, is in no bin of the mode '2d'. -/
theorem along_lost {L : ℚ} (hL : 0 < L) {D A : Pos → Pos → ℚ} (hD : IsDist2 L D) {los : Int} (hA : IsAlong L los A) (b : PcfObj.Bins) (hm : b.mode = "2d") {n : Nat}
    (hn : b.Nmu = some n) (p q : Part) (h0 : D p.pos q.pos ≠ 0) (h1 : A p.pos q.pos = D p.pos q.pos) (k : Nat) : bin0 los true ⟨L, L, L⟩ b p q ≠ some k := by
  intro hk
  rw [bin0_eq los true ⟨L, L, L⟩ b (fun _ => ⟨rfl, rfl⟩)] at hk
  unfold binOf at hk
  rw [(bins2_2d hm hn).1, (bins2_2d hm hn).2.2] at hk
  simp only [if_pos hm, Option.getD_some] at hk
  rw [perp_eq hL hD hA, par_eq hL hA, sub_add_cancel, Pairs.bin2_spec, h1, div_self h0] at hk
  obtain ⟨hn0, -, hj⟩ := hk
  rw [second_iff 1 (by norm_num) n (k % n) (Nat.mod_lt k hn0)] at hj
  have hlt : ((k % n : Nat) : ℚ) + 1 ≤ n := by exact_mod_cast Nat.mod_lt k hn0
  have hnq : (0 : ℚ) < n := by exact_mod_cast hn0
  have : (1 * (((k % n : Nat) : ℚ) + 1) / n) ≤ 1 := by rw [div_le_one hnq]; linarith
  have h2 : (0 : ℚ) ≤ 1 * (((k % n : Nat) : ℚ) + 1) / n := by positivity
  have := pow_le_one₀ h2 this (n := 2)
  linarith [hj.2]

theorem InCube.pi1 {C : Nat → Cat} {kw : Kw} {g : Args} {L : ℚ} {l : Int} (h : InCube C kw g L l) {pm : ℚ} (hp : g.bins.pimax = some pm) : 1 ≤ pm :=
  ((Pairs.checkArgs_iff _ _ _ _).mp h.args).2.2.2.2.2 pm hp

theorem ring_fill {π a b L pm : ℚ} {n j : Nat} (hpi : π ≠ 0) (h2 : b ^ 2 - a ^ 2 ≠ 0) (hL : L ≠ 0) (hpm : 1 ≤ pm) (hj : j < n) :
    π * (b ^ 2 - a ^ 2) * (2 * (pm / n)) / L ^ 3 ≠ 0 := by
  have hn0 : (n : ℚ) ≠ 0 := by exact_mod_cast (by omega : n ≠ 0)
  exact div_ne_zero (mul_ne_zero (mul_ne_zero hpi h2) (mul_ne_zero (by norm_num) (div_ne_zero (by linarith) hn0))) (pow_ne_zero 3 hL)

/-- C140: **the auto-correlation of the mode 'projected'** in the bin of distances `[a, b)` across the line of sight and `[j, j+1) * pimax/n` along it, where `n` is `pimax` without its
fraction: the pairs there, as a fraction of all pairs, over the volume of the ring on both sides, as a fraction of the cube, times `(N-1)/N`, less one. -/
theorem auto_projected {P : Nat} {C : Nat → Cat} (hP : ∀ i, (C i).rows.length = P) {E : Env} {root : ℚ → ℚ} {mach : Nat → Option Nat → Mach}
    (hm : ∀ i j, (mach i j).Good P) {kw : Kw} {g : Args} {L : ℚ} {l : Int} (h : InCube C kw g L l) (hmd : g.bins.mode = "projected") (pm : ℚ) (hp : g.bins.pimax = some pm) (n : Nat) (hn : n = ⌊pm⌋.toNat) (hd : g.data2 = none)
    (hs : g.bins.edges.Pairwise (· ≤ ·)) {D A : Pos → Pos → ℚ} (hD : IsDist2 L D) (hA : IsAlong L l A) (X : List Part) (hX : X = (C g.data1).all)
    (W : ℚ) (hW : W = (X.map Part.w).sum ^ 2 - (X.map fun p => p.w ^ 2).sum) (hW0 : W ≠ 0) (N : ℚ) (hN : N = X.length) (hpi : E.pi ≠ 0)
    (o : Tpcf) (ho : tpcf E root mach kw C g = .ok o) (i j : Nat) (hj : j < n) (a b : ℚ) (h1 : g.bins.edges[i]? = some a) (h2 : g.bins.edges[i + 1]? = some b) (hab : a ≠ b) :
    (columnOf o.corr "corr")[i * n + j]? =
      some (.fin (pairsOf (Ring D A a b (pm * j / n) (pm * (j + 1) / n)) X X / W / (E.pi * (b ^ 2 - a ^ 2) * (2 * (pm / n)) / L ^ 3) * ((N - 1) / N) - 1)) := by
  have hp1 := h.pi1 hp
  obtain ⟨de, hst, hf⟩ := fill_projected (envOf E root mach kw C g) L g.bins hmd pm hp hp1 n hn i j hj a b h1 h2
  have hpos0 : ∀ e ∈ g.bins.edges, 0 ≤ e := fun e he => (h.pos e he).le
  have h3 := cube_ne (h.pos a (List.mem_of_getElem? h1)) (h.pos b (List.mem_of_getElem? h2)) hab 2 (by norm_num)
  exact auto_bin hP hm h hd X hX W hW hW0 N hN o ho de hst (i * n + j) (by rw [(bins2_proj hmd hp hp1).2.1, ← hn]; exact bin_lt _ _ _ _ (lt_of_next h2) hj) _
    (fun p q => bin0_projected h.side hD hA g.bins hmd hp hp1 hn hpos0 hs p q i j hj a b h1 h2) _ (ring_fill hpi h3 h.side.ne' hp1 hj) hf

/-- C140: **the cross-correlation of the mode 'projected'**. -/
theorem cross_projected {P : Nat} {C : Nat → Cat} (hP : ∀ i, (C i).rows.length = P) {E : Env} {root : ℚ → ℚ} {mach : Nat → Option Nat → Mach}
    (hm : ∀ i j, (mach i j).Good P) {kw : Kw} {g : Args} {L : ℚ} {l : Int} (h : InCube C kw g L l) (hmd : g.bins.mode = "projected") (pm : ℚ) (hp : g.bins.pimax = some pm) (n : Nat) (hn : n = ⌊pm⌋.toNat) (d : Nat) (hd : g.data2 = some d) (hne : d ≠ g.data1)
    (hs : g.bins.edges.Pairwise (· ≤ ·)) {D A : Pos → Pos → ℚ} (hD : IsDist2 L D) (hA : IsAlong L l A) (X Y : List Part) (hX : X = (C g.data1).all) (hY : Y = (C d).all)
    (hX0 : (X.map Part.w).sum ≠ 0) (hY0 : (Y.map Part.w).sum ≠ 0) (hpi : E.pi ≠ 0)
    (o : Tpcf) (ho : tpcf E root mach kw C g = .ok o) (i j : Nat) (hj : j < n) (a b : ℚ) (h1 : g.bins.edges[i]? = some a) (h2 : g.bins.edges[i + 1]? = some b) (hab : a ≠ b) :
    (columnOf o.corr "corr")[i * n + j]? =
      some (.fin (pairsOf (Ring D A a b (pm * j / n) (pm * (j + 1) / n)) X Y / ((X.map Part.w).sum * (Y.map Part.w).sum) /
        (E.pi * (b ^ 2 - a ^ 2) * (2 * (pm / n)) / L ^ 3) - 1)) := by
  have hp1 := h.pi1 hp
  obtain ⟨de, hst, hf⟩ := fill_projected (envOf E root mach kw C g) L g.bins hmd pm hp hp1 n hn i j hj a b h1 h2
  have hpos0 : ∀ e ∈ g.bins.edges, 0 ≤ e := fun e he => (h.pos e he).le
  have h3 := cube_ne (h.pos a (List.mem_of_getElem? h1)) (h.pos b (List.mem_of_getElem? h2)) hab 2 (by norm_num)
  exact cross_bin hP hm h d hd hne X Y hX hY hX0 hY0 o ho de hst (i * n + j) (by rw [(bins2_proj hmd hp hp1).2.1, ← hn]; exact bin_lt _ _ _ _ (lt_of_next h2) hj) _
    (fun p q => bin0_projected h.side hD hA g.bins hmd hp hp1 hn hpos0 hs p q i j hj a b h1 h2) _ (ring_fill hpi h3 h.side.ne' hp1 hj) hf

/-! ## The projected correlation function -/

theorem ring_split (D A : Pos → Pos → ℚ) (a b u v w : ℚ) (h0 : 0 ≤ u) (h1 : u ≤ v) (h2 : v ≤ w) (X Y : List Part) :
    pairsOf (Ring D A a b u w) X Y = pairsOf (Ring D A a b u v) X Y + pairsOf (Ring D A a b v w) X Y := by
  unfold pairsOf
  rw [← List.sum_map_add]
  congr 1
  apply List.map_congr_left
  intro p _
  rw [← List.sum_map_add]
  congr 1
  apply List.map_congr_left
  intro q _
  have e1 : u ^ 2 ≤ v ^ 2 := pow_le_pow_left₀ h0 h1 2
  have e2 : v ^ 2 ≤ w ^ 2 := pow_le_pow_left₀ (h0.trans h1) h2 2
  unfold Ring
  by_cases hx : a ^ 2 ≤ D p.pos q.pos - A p.pos q.pos ∧ D p.pos q.pos - A p.pos q.pos < b ^ 2
  · simp only [hx, true_and]
    by_cases hv : A p.pos q.pos < v ^ 2
    · have n1 : ¬ v ^ 2 ≤ A p.pos q.pos := not_le.mpr hv
      have n2 : A p.pos q.pos < w ^ 2 := lt_of_lt_of_le hv e2
      simp [hv, n1, n2]
    · have n1 : v ^ 2 ≤ A p.pos q.pos := not_lt.mp hv
      have n2 : u ^ 2 ≤ A p.pos q.pos := e1.trans n1
      simp [hv, n1, n2]
  · simp only [hx, false_and, if_false, add_zero]

theorem ring_sum (D A : Pos → Pos → ℚ) (a b s : ℚ) (hs : 0 ≤ s) (X Y : List Part) (m : Nat) :
    ((List.range m).map fun j : Nat => pairsOf (Ring D A a b (s * j) (s * (j + 1))) X Y).sum = pairsOf (Ring D A a b 0 (s * m)) X Y := by
  induction m with
  | zero =>
    simp only [List.range_zero, List.map_nil, List.sum_nil, Nat.cast_zero, mul_zero]
    symm
    unfold pairsOf
    apply List.sum_eq_zero
    intro x hx
    obtain ⟨p, -, rfl⟩ := List.mem_map.mp hx
    apply List.sum_eq_zero
    intro y hy
    obtain ⟨q, -, rfl⟩ := List.mem_map.mp hy
    rw [if_neg]
    rintro ⟨-, h1, h2⟩
    exact absurd (lt_of_le_of_lt h1 h2) (lt_irrefl _)
  | succ m ih =>
    rw [List.range_succ, List.map_append, List.sum_append, ih, List.map_singleton, List.sum_singleton]
    have hm0 : (0 : ℚ) ≤ m := Nat.cast_nonneg m
    rw [Nat.cast_succ, ring_split D A a b 0 (s * m) (s * (m + 1)) le_rfl (mul_nonneg hs hm0) (mul_le_mul_of_nonneg_left (by linarith) hs)]

theorem sized_env {P : Nat} {C : Nat → Cat} (hP : ∀ i, (C i).rows.length = P) {E : Env} {root : ℚ → ℚ} {mach : Nat → Option Nat → Mach}
    (hm : ∀ i j, (mach i j).Good P) (kw : Kw) (g : Args) (b : PcfObj.Bins) (hE : Sized E b) (hmd : b.mode = "projected") {pm : ℚ} (hp : b.pimax = some pm) (hp1 : 1 ≤ pm) :
    Sized (envOf E root mach kw C g) b := by
  intro c i j x hx dims edges hst
  by_cases hc : c = .box ∧ b.mode ≠ "angular"
  · have n1 : ¬ ("projected" = "1d") := by decide
    have n2 : ¬ ("projected" = "2d") := by decide
    simp only [envOf] at hx
    rw [if_pos hc] at hx
    cases hb : boxArg g.box with
    | error _ => rw [hb] at hx; simp [Except.bind] at hx
    | ok bx =>
      rw [hb] at hx
      simp only [Except.bind] at hx
      rw [count_eq root (mach i j) P (hm _ _) _ _ _ _ b hc.2 (C i) _ _ (hP _)] at hx
      have hst' : stateBins b = .ok (["rp", "pi"], [b.edges, linspace 0 pm (⌊pm⌋.toNat + 1)]) := by
        simp only [stateBins, hmd, hp, n1, n2, if_true, if_false, PcfObj.floor_succ pm (by linarith)]
      rw [hst'] at hst
      obtain ⟨-, rfl⟩ := Prod.mk.inj (Except.ok.inj hst)
      have hnb := (bins2_proj hmd hp hp1).2.1
      have hpr : (([b.edges, linspace 0 pm (⌊pm⌋.toNat + 1)] : List (List ℚ)).map fun e => e.length - 1).prod = nbins b := by
        rw [hnb]
        simp [linspace]
      rw [hpr]
      cases hch : BoxTpcf.checks kw.los ((periodicOf g).getD false) bx b (C i) ((j.map C).getD (C i)) with
      | error _ => rw [hch] at hx; simp [Except.bind] at hx
      | ok lb =>
        rw [hch] at hx
        simp only [Except.bind] at hx
        rw [if_neg (by rw [hmd]; exact fun hh => n2 hh.1)] at hx
        rw [← Except.ok.inj hx]
        simp [direct, tally]
  · simp only [envOf] at hx
    rw [if_neg hc] at hx
    exact hE c i j x hx dims edges hst

theorem wp_sum (v : Nat → ℚ) (pm : ℚ) (n : Nat) :
    Estim.wp ((List.range n).map fun j => some (v j)) (linspace 0 pm (n + 1)) = some (2 * (pm / n) * ((List.range n).map v).sum) := by
  have hr : ((List.range n).map fun j => some (v j)) = ((List.range n).map v).map some := by rw [List.map_map]; rfl
  rw [hr, Estim.wp_eq]
  have hz : List.zipWith (fun c d => c * d) ((List.range n).map v) (Estim.diff (linspace 0 pm (n + 1))) = (List.range n).map fun j => (pm / n) * v j := by
    apply List.ext_getElem?
    intro j
    by_cases hj : j < n
    · rw [List.getElem?_zipWith, Estim.diff_getElem? _ j _ _ (linspace_get pm n j (by omega)) (linspace_get pm n (j + 1) (by omega))]
      simp only [List.getElem?_map, List.getElem?_range hj, Option.map_some]
      congr 1
      push_cast
      ring
    · rw [List.getElem?_eq_none (by simp [Estim.diff, linspace]; omega), List.getElem?_eq_none (by simp; omega)]
  rw [hz]
  congr 1
  have : ∀ l : List Nat, (l.map fun j => (pm / n) * v j).sum = pm / n * (l.map v).sum := fun l => by rw [List.sum_map_mul_left]
  rw [this]
  ring

/-- The projected correlation of any counter from the values of the bins along the line of sight. -/
theorem wp_of_bins (e : Env) (g : Args) (hs : Sized e g.bins) (hg : GivenSized g) (hmd : g.bins.mode = "projected") (pm : ℚ) (hp : g.bins.pimax = some pm) (n : Nat) (hn : n = ⌊pm⌋.toNat)
    (o : Tpcf) (ho : new e g = .ok o) (i : Nat) (hi : i + 1 < g.bins.edges.length) (v : Nat → ℚ)
    (hv : ∀ j < n, (columnOf o.corr "corr")[i * n + j]? = some (.fin (v j))) :
    2 ≤ pm ∧ ∃ w, o.wp = some (some w) ∧ (columnOf w "corr")[i]? = some (.fin (2 * (pm / n) * ((List.range n).map v).sum)) := by
  have n1 : ¬ ("projected" = "1d") := by decide
  have n2 : ¬ ("projected" = "2d") := by decide
  obtain ⟨w1, w2⟩ := wp_spec e g hs hg hmd pm hp (by omega)
  have h2 : 2 ≤ pm := by
    by_contra hlt
    exact w1 (not_le.mp hlt) o ho
  refine ⟨h2, ?_⟩
  obtain ⟨r, h0, -, -, -, -, -, hcorr, -⟩ := run_of_new ho
  obtain ⟨w, k1, -, -, -, -, k2⟩ := w2 r h0 h2
  have ho' := ho
  rw [k1] at ho'
  obtain rfl := Except.ok.inj ho'
  refine ⟨w, rfl, ?_⟩
  obtain ⟨de, d1, -, -, -, d5, -⟩ := run_std h0
  have hst : stateBins g.bins = .ok (["rp", "pi"], [g.bins.edges, linspace 0 pm (n + 1)]) := by
    simp only [stateBins, hmd, hp, n1, n2, if_true, if_false, PcfObj.floor_succ pm (by linarith), hn]
  rw [hst] at d1
  obtain rfl := Except.ok.inj d1
  have hedg : r.corr.edges.getD 1 [] = linspace 0 pm (n + 1) := by rw [d5.edges]; rfl
  rw [k2, List.getElem?_map, hedg, ← hn]
  unfold rowsOf
  rw [List.getElem?_map, List.getElem?_range (by omega)]
  simp only [Option.map_some]
  have hrow : ((List.drop (i * n) ((columnOf r.corr "corr").map Binned.Val.rat?)).take n) = (List.range n).map fun j => some (v j) := by
    apply List.ext_getElem?
    intro j
    by_cases hj : j < n
    · rw [List.getElem?_take_of_lt hj, List.getElem?_drop, List.getElem?_map, hv j hj, List.getElem?_map, List.getElem?_range hj]
      rfl
    · rw [List.getElem?_eq_none (by simp; omega), List.getElem?_eq_none (by simp; omega)]
  rw [hrow, wp_sum]
  rfl

/-- The projected correlation from the values of the bins along the line of sight. -/
theorem wp_bin {P : Nat} {C : Nat → Cat} (hP : ∀ i, (C i).rows.length = P) {E : Env} {root : ℚ → ℚ} {mach : Nat → Option Nat → Mach}
    (hm : ∀ i j, (mach i j).Good P) {kw : Kw} {g : Args} {L : ℚ} {l : Int} (h : InCube C kw g L l) (hE : Sized E g.bins) (hg : g.R1R2 = none) (hmd : g.bins.mode = "projected") (pm : ℚ) (hp : g.bins.pimax = some pm) (n : Nat) (hn : n = ⌊pm⌋.toNat)
    (o : Tpcf) (ho : tpcf E root mach kw C g = .ok o) (i : Nat) (hi : i + 1 < g.bins.edges.length) (v : Nat → ℚ)
    (hv : ∀ j < n, (columnOf o.corr "corr")[i * n + j]? = some (.fin (v j))) :
    2 ≤ pm ∧ ∃ w, o.wp = some (some w) ∧ (columnOf w "corr")[i]? = some (.fin (2 * (pm / n) * ((List.range n).map v).sum)) := by
  exact wp_of_bins _ g (sized_env hP hm kw g g.bins hE hmd hp (h.pi1 hp)) (fun o ho => by rw [hg] at ho; cases ho) hmd pm hp n hn o ho i hi v hv

/-- What is counted in any mode but 'angular'. -/
theorem InCube.base {P : Nat} {C : Nat → Cat} (hP : ∀ i, (C i).rows.length = P) {E : Env} {root : ℚ → ℚ} {mach : Nat → Option Nat → Mach}
    (hm : ∀ i j, (mach i j).Good P) {kw : Kw} {g : Args} {L : ℚ} {l : Int} (h : InCube C kw g L l) : ∃ o, runBase (envOf E root mach kw C g) g = .ok o := by
  have hct : counterOf g = .box := by simp [counterOf, periodicOf, h.kind]
  obtain ⟨md, hmd⟩ := h.args
  have hc := h.count hP (E := E) (root := root) hm
  obtain ⟨e, hee⟩ : ∃ e, e = envOf E root mach kw C g := ⟨_, rfl⟩
  rw [← hee] at hc ⊢
  obtain ⟨x, hx⟩ : ∃ x, e.count .box g.bins g.data1 g.data2 = .ok x := ⟨_, hc⟩
  obtain ⟨p, hp', -, -, -, -, -, -, hsh, hl, -⟩ := pairs_spec .box g.bins x md hmd
  have hcd : counted e .box g.bins g.data1 g.data2 = .ok (x, p) := by
    unfold counted
    rw [hmd]
    simp [hx, hp', Except.bind]
  unfold runBase
  rw [if_pos (by simp [isAnalytic, periodicOf, h.kind, h.per, h.rand])]
  unfold runNatural
  have hn : naturalData e g = .ok (g.data1, g.data2) := by simp [naturalData, h.mode]
  rw [hn]
  simp only [Except.bind, hct, hcd]
  unfold analyticPairs corrOf
  rw [hsh]
  obtain ⟨b1, k1⟩ := make_ok p.dims p.edges [⟨"npairs", false, (Estim.analytic (filling e g.bins.mode p.edges (g.box.getD ((e.boxOf g.data1).getD [0, 0, 0])))
    (e.csize g.data1) (if x.isCross then g.data2.map fun c => (e.csize c : ℚ) else none)).2.map .fin⟩,
    ⟨"wnpairs", false, (Estim.analytic (filling e g.bins.mode p.edges (g.box.getD ((e.boxOf g.data1).getD [0, 0, 0])))
    (e.csize g.data1) (if x.isCross then g.data2.map fun c => (e.csize c : ℚ) else none)).2.map .fin⟩] [] none hl
  rw [k1]
  simp only [Except.bind]
  obtain ⟨b2, k2⟩ := make_ok p.dims p.edges [⟨"corr", false, (Estim.natural (filling e g.bins.mode p.edges (g.box.getD ((e.boxOf g.data1).getD [0, 0, 0])))
    (e.csize g.data1) (if x.isCross then g.data2.map fun c => (e.csize c : ℚ) else none) x.pc).map PcfObj.val⟩,
    ⟨p.dims.headD "", false, (p.data.find? fun c => c.name = p.dims.headD "").elim [] Binned.Col.vals⟩] [] none hl
  rw [k2]
  exact ⟨_, rfl⟩

/-- C140: the correlation functions of the modes '1d' and '2d' are made. -/
theorem InCube.made {P : Nat} {C : Nat → Cat} (hP : ∀ i, (C i).rows.length = P) {E : Env} {root : ℚ → ℚ} {mach : Nat → Option Nat → Mach}
    (hm : ∀ i j, (mach i j).Good P) {kw : Kw} {g : Args} {L : ℚ} {l : Int} (h : InCube C kw g L l) (hp : g.bins.mode ≠ "projected") : ∃ o, tpcf E root mach kw C g = .ok o := by
  obtain ⟨q, hq⟩ := h.base hP (E := E) (root := root) hm
  unfold tpcf new
  rw [hq]
  simp only [Except.bind, if_neg hp]
  exact ⟨_, rfl⟩

/-- C140: that of the mode 'projected' is made exactly if `pimax` is at least 2. -/
theorem InCube.made_projected {P : Nat} {C : Nat → Cat} (hP : ∀ i, (C i).rows.length = P) {E : Env} {root : ℚ → ℚ} {mach : Nat → Option Nat → Mach}
    (hm : ∀ i j, (mach i j).Good P) {kw : Kw} {g : Args} {L : ℚ} {l : Int} (h : InCube C kw g L l) (hE : Sized E g.bins) (hg : g.R1R2 = none) (hmd : g.bins.mode = "projected") (pm : ℚ)
    (hp : g.bins.pimax = some pm) (h2 : 2 ≤ g.bins.edges.length) : (∃ o, tpcf E root mach kw C g = .ok o) ↔ 2 ≤ pm := by
  obtain ⟨w1, w2⟩ := wp_spec (envOf E root mach kw C g) g (sized_env hP hm kw g g.bins hE hmd hp (h.pi1 hp)) (fun o ho => by rw [hg] at ho; cases ho) hmd pm hp h2
  constructor
  · rintro ⟨o, ho⟩
    by_contra hlt
    exact w1 (not_le.mp hlt) o ho
  · intro hle
    obtain ⟨q, hq⟩ := h.base hP (E := E) (root := root) hm
    obtain ⟨w, hw, -⟩ := w2 q hq hle
    exact ⟨_, hw⟩

/-! ## Bins of `mu` together -/

/-- Distances in `[a, b)`, but not exactly along the line of sight. -/
def Shell (D A : Pos → Pos → ℚ) (a b : ℚ) (p q : Pos) : Prop := (a ^ 2 ≤ D p q ∧ D p q < b ^ 2) ∧ A p q < D p q

instance (D A : Pos → Pos → ℚ) (a b : ℚ) (p q : Pos) : Decidable (Shell D A a b p q) := by unfold Shell; infer_instance

theorem wedge_split (D A : Pos → Pos → ℚ) (a b u v w : ℚ) (h0 : 0 ≤ u) (h1 : u ≤ v) (h2 : v ≤ w) (X Y : List Part) :
    pairsOf (Wedge D A a b u w) X Y = pairsOf (Wedge D A a b u v) X Y + pairsOf (Wedge D A a b v w) X Y := by
  unfold pairsOf
  rw [← List.sum_map_add]
  congr 1
  apply List.map_congr_left
  intro p _
  rw [← List.sum_map_add]
  congr 1
  apply List.map_congr_left
  intro q _
  have e1 : u ^ 2 ≤ v ^ 2 := pow_le_pow_left₀ h0 h1 2
  have e2 : v ^ 2 ≤ w ^ 2 := pow_le_pow_left₀ (h0.trans h1) h2 2
  unfold Wedge
  obtain ⟨m, hm⟩ : ∃ m, m = A p.pos q.pos / D p.pos q.pos := ⟨_, rfl⟩
  by_cases hx : a ^ 2 ≤ D p.pos q.pos ∧ D p.pos q.pos < b ^ 2
  · simp only [hx, true_and, ← hm]
    by_cases hv : m < v ^ 2
    · have n1 : ¬ v ^ 2 ≤ m := not_le.mpr hv
      have n2 : m < w ^ 2 := lt_of_lt_of_le hv e2
      simp [hv, n1, n2]
    · have n1 : v ^ 2 ≤ m := not_lt.mp hv
      have n2 : u ^ 2 ≤ m := e1.trans n1
      simp [hv, n1, n2]
  · simp only [hx, false_and, if_false, add_zero]

theorem wedge_sum (D A : Pos → Pos → ℚ) (a b s : ℚ) (hs : 0 ≤ s) (X Y : List Part) (m : Nat) :
    ((List.range m).map fun j : Nat => pairsOf (Wedge D A a b (s * j) (s * (j + 1))) X Y).sum = pairsOf (Wedge D A a b 0 (s * m)) X Y := by
  induction m with
  | zero =>
    simp only [List.range_zero, List.map_nil, List.sum_nil, Nat.cast_zero, mul_zero]
    symm
    unfold pairsOf
    apply List.sum_eq_zero
    intro x hx
    obtain ⟨p, -, rfl⟩ := List.mem_map.mp hx
    apply List.sum_eq_zero
    intro y hy
    obtain ⟨q, -, rfl⟩ := List.mem_map.mp hy
    rw [if_neg]
    rintro ⟨-, h1, h2⟩
    exact absurd (lt_of_le_of_lt h1 h2) (lt_irrefl _)
  | succ m ih =>
    rw [List.range_succ, List.map_append, List.sum_append, ih, List.map_singleton, List.sum_singleton]
    have hm0 : (0 : ℚ) ≤ m := Nat.cast_nonneg m
    rw [Nat.cast_succ, wedge_split D A a b 0 (s * m) (s * (m + 1)) le_rfl (mul_nonneg hs hm0) (mul_le_mul_of_nonneg_left (by linarith) hs)]

theorem least_nonneg {L x d : ℚ} (h : Least L x d) : 0 ≤ d := by
  obtain ⟨⟨n, hn⟩, -⟩ := h
  rw [hn]
  exact sq_nonneg _

theorem wedge_all {L : ℚ} {l : Int} {D A : Pos → Pos → ℚ} (hA : IsAlong L l A) (a b : ℚ) (ha : 0 < a) (X Y : List Part) :
    pairsOf (Wedge D A a b 0 1) X Y = pairsOf (Shell D A a b) X Y := by
  unfold pairsOf
  congr 1
  apply List.map_congr_left
  intro p _
  congr 1
  apply List.map_congr_left
  intro q _
  have hA0 : 0 ≤ A p.pos q.pos := least_nonneg (hA p.pos q.pos)
  have : Wedge D A a b 0 1 p.pos q.pos ↔ Shell D A a b p.pos q.pos := by
    unfold Wedge Shell
    constructor
    · rintro ⟨hd, -, h2⟩
      have hpos : 0 < D p.pos q.pos := lt_of_lt_of_le (pow_pos ha 2) hd.1
      rw [one_pow, div_lt_one hpos] at h2
      exact ⟨hd, h2⟩
    · rintro ⟨hd, h2⟩
      have hpos : 0 < D p.pos q.pos := lt_of_lt_of_le (pow_pos ha 2) hd.1
      refine ⟨hd, ?_, ?_⟩
      · rw [zero_pow (by norm_num)]
        exact div_nonneg hA0 hpos.le
      · rw [one_pow, div_lt_one hpos]
        exact h2
  simp only [this]

theorem mean_mu {L : ℚ} {l : Int} {D A : Pos → Pos → ℚ} (hA : IsAlong L l A) (a b : ℚ) (ha : 0 < a) (X Y : List Part) (n : Nat) (hn : 0 < n) (W V F : ℚ) :
    ((List.range n).map fun j : Nat => pairsOf (Wedge D A a b (j / n) ((j + 1) / n)) X Y / W / (V / n) * F - 1).sum / n = pairsOf (Shell D A a b) X Y / W / V * F - 1 := by
  have hn0 : (n : ℚ) ≠ 0 := by exact_mod_cast hn.ne'
  have hsum := wedge_sum D A a b (1 / n) (by positivity) X Y n
  rw [one_div_mul_cancel hn0, wedge_all hA a b ha] at hsum
  rw [← hsum]
  have e : ∀ j : Nat, pairsOf (Wedge D A a b (j / n) ((j + 1) / n)) X Y / W / (V / n) * F - 1 =
      pairsOf (Wedge D A a b (1 / n * j) (1 / n * (j + 1))) X Y * (n / W / V * F) + -1 := by
    intro j
    rw [show (1 / n * j : ℚ) = j / n by ring, show (1 / n * (j + 1) : ℚ) = (j + 1) / n by ring]
    generalize pairsOf (Wedge D A a b (j / n) ((j + 1) / n)) X Y = y
    rw [div_div_eq_mul_div]
    ring
  rw [List.map_congr_left fun j _ => e j, List.sum_map_add, List.sum_map_mul_right]
  generalize ((List.range n).map fun j : Nat => pairsOf (Wedge D A a b (1 / n * j) (1 / n * (j + 1))) X Y).sum = y
  simp only [List.map_const', List.length_range, List.sum_replicate, nsmul_eq_mul]
  field_simp
  ring

/-- C140: **the mean over the bins of `mu`** of the auto-correlation of the mode '2d' is the value that the mode '1d' would have without the pairs exactly along the line of sight. -/
theorem auto_mean_mu {P : Nat} {C : Nat → Cat} (hP : ∀ i, (C i).rows.length = P) {E : Env} {root : ℚ → ℚ} {mach : Nat → Option Nat → Mach}
    (hm : ∀ i j, (mach i j).Good P) {kw : Kw} {g : Args} {L : ℚ} {l : Int} (h : InCube C kw g L l) (hmd : g.bins.mode = "2d") (n : Nat) (hn : g.bins.Nmu = some n) (hn0 : 0 < n) (hd : g.data2 = none)
    (hs : g.bins.edges.Pairwise (· ≤ ·)) {D A : Pos → Pos → ℚ} (hD : IsDist2 L D) (hA : IsAlong L l A) (X : List Part) (hX : X = (C g.data1).all)
    (W : ℚ) (hW : W = (X.map Part.w).sum ^ 2 - (X.map fun p => p.w ^ 2).sum) (hW0 : W ≠ 0) (N : ℚ) (hN : N = X.length) (hpi : E.pi ≠ 0) (i : Nat) (a b : ℚ)
    (h1 : g.bins.edges[i]? = some a) (h2 : g.bins.edges[i + 1]? = some b) (hab : a ≠ b) :
    ∃ o, tpcf E root mach kw C g = .ok o ∧ ∃ v : Nat → ℚ, (∀ j < n, (columnOf o.corr "corr")[i * n + j]? = some (.fin (v j))) ∧
      ((List.range n).map v).sum / n = pairsOf (Shell D A a b) X X / W / (4 / 3 * E.pi * (b ^ 3 - a ^ 3) / L ^ 3) * ((N - 1) / N) - 1 := by
  obtain ⟨o, ho⟩ := h.made hP (E := E) (root := root) hm (by rw [hmd]; decide)
  refine ⟨o, ho, fun j => pairsOf (Wedge D A a b (j / n) ((j + 1) / n)) X X / W / (4 / 3 * E.pi * (b ^ 3 - a ^ 3) / L ^ 3 / n) * ((N - 1) / N) - 1, fun j hj => ?_,
    mean_mu hA a b (h.pos a (List.mem_of_getElem? h1)) X X n hn0 W _ _⟩
  rw [div_right_comm _ (L ^ 3) (n : ℚ)]
  exact auto_2d hP hm h hmd n hn hd hs hD hA X hX W hW hW0 N hN hpi o ho i j hj a b h1 h2 hab

/-- C140: the same for a cross-correlation. -/
theorem cross_mean_mu {P : Nat} {C : Nat → Cat} (hP : ∀ i, (C i).rows.length = P) {E : Env} {root : ℚ → ℚ} {mach : Nat → Option Nat → Mach}
    (hm : ∀ i j, (mach i j).Good P) {kw : Kw} {g : Args} {L : ℚ} {l : Int} (h : InCube C kw g L l) (hmd : g.bins.mode = "2d") (n : Nat) (hn : g.bins.Nmu = some n) (hn0 : 0 < n)
    (d : Nat) (hd : g.data2 = some d) (hne : d ≠ g.data1)
    (hs : g.bins.edges.Pairwise (· ≤ ·)) {D A : Pos → Pos → ℚ} (hD : IsDist2 L D) (hA : IsAlong L l A) (X Y : List Part) (hX : X = (C g.data1).all) (hY : Y = (C d).all)
    (hX0 : (X.map Part.w).sum ≠ 0) (hY0 : (Y.map Part.w).sum ≠ 0) (hpi : E.pi ≠ 0) (i : Nat) (a b : ℚ)
    (h1 : g.bins.edges[i]? = some a) (h2 : g.bins.edges[i + 1]? = some b) (hab : a ≠ b) :
    ∃ o, tpcf E root mach kw C g = .ok o ∧ ∃ v : Nat → ℚ, (∀ j < n, (columnOf o.corr "corr")[i * n + j]? = some (.fin (v j))) ∧
      ((List.range n).map v).sum / n = pairsOf (Shell D A a b) X Y / ((X.map Part.w).sum * (Y.map Part.w).sum) / (4 / 3 * E.pi * (b ^ 3 - a ^ 3) / L ^ 3) - 1 := by
  obtain ⟨o, ho⟩ := h.made hP (E := E) (root := root) hm (by rw [hmd]; decide)
  refine ⟨o, ho, fun j => pairsOf (Wedge D A a b (j / n) ((j + 1) / n)) X Y / ((X.map Part.w).sum * (Y.map Part.w).sum) / (4 / 3 * E.pi * (b ^ 3 - a ^ 3) / L ^ 3 / n) * 1 - 1, fun j hj => ?_, ?_⟩
  · beta_reduce
    rw [div_right_comm _ (L ^ 3) (n : ℚ), mul_one]
    exact cross_2d hP hm h hmd n hn d hd hne hs hD hA X Y hX hY hX0 hY0 hpi o ho i j hj a b h1 h2 hab
  · have := mean_mu (D := D) hA a b (h.pos a (List.mem_of_getElem? h1)) X Y n hn0 ((X.map Part.w).sum * (Y.map Part.w).sum) (4 / 3 * E.pi * (b ^ 3 - a ^ 3) / L ^ 3) 1
    rw [mul_one] at this
    exact this

theorem wp_closed (D A : Pos → Pos → ℚ) (a b pm K F : ℚ) (n : Nat) (hn : 0 < n) (hpm : 0 < pm) (hF : F ≠ 0) (X Y : List Part) :
    2 * (pm / n) * ((List.range n).map fun j : Nat => pairsOf (Ring D A a b (pm * j / n) (pm * (j + 1) / n)) X Y * K / (F * (2 * (pm / n))) - 1).sum =
      pairsOf (Ring D A a b 0 pm) X Y * K / F - 2 * pm := by
  have hn0 : (n : ℚ) ≠ 0 := by exact_mod_cast (by omega : n ≠ 0)
  have hs := ring_sum D A a b (pm / n) (div_nonneg hpm.le (Nat.cast_nonneg n)) X Y n
  have e0 : pm / n * n = pm := div_mul_cancel₀ pm hn0
  rw [e0] at hs
  rw [← hs]
  have e1 : ((List.range n).map fun j : Nat => pairsOf (Ring D A a b (pm * j / n) (pm * (j + 1) / n)) X Y * K / (F * (2 * (pm / n))) - 1) =
      (List.range n).map fun j : Nat => K / (F * (2 * (pm / n))) * pairsOf (Ring D A a b (pm / n * j) (pm / n * (j + 1))) X Y + (-1) := by
    apply List.map_congr_left
    intro j _
    have q1 : pm * j / n = pm / n * j := by ring
    have q2 : pm * (j + 1) / n = pm / n * (j + 1) := by ring
    rw [q1, q2]
    ring
  rw [e1, List.sum_map_add, List.sum_map_mul_left]
  generalize ((List.range n).map fun j : Nat => pairsOf (Ring D A a b (pm / n * j) (pm / n * (j + 1))) X Y).sum = S
  have e2 : ((List.range n).map fun _ : Nat => (-1 : ℚ)).sum = -n := by simp
  rw [e2]
  have hpm' := hpm.ne'
  field_simp
  try ring

/-- C140: **the projected correlation function** of a catalog for distances `[a, b)` across the line of sight: the pairs less than `pimax` apart along the line of sight, as a fraction of
all pairs, over the area of the ring, times `(N-1)/N` and the volume of the cube, less `2 pimax`; whatever the bins along the line of sight. -/
theorem auto_wp {P : Nat} {C : Nat → Cat} (hP : ∀ i, (C i).rows.length = P) {E : Env} {root : ℚ → ℚ} {mach : Nat → Option Nat → Mach}
    (hm : ∀ i j, (mach i j).Good P) {kw : Kw} {g : Args} {L : ℚ} {l : Int} (h : InCube C kw g L l) (hE : Sized E g.bins) (hg : g.R1R2 = none) (hmd : g.bins.mode = "projected") (pm : ℚ) (hp : g.bins.pimax = some pm) (hd : g.data2 = none)
    (hs : g.bins.edges.Pairwise (· ≤ ·)) {D A : Pos → Pos → ℚ} (hD : IsDist2 L D) (hA : IsAlong L l A) (X : List Part) (hX : X = (C g.data1).all)
    (W : ℚ) (hW : W = (X.map Part.w).sum ^ 2 - (X.map fun p => p.w ^ 2).sum) (hW0 : W ≠ 0) (N : ℚ) (hN : N = X.length) (hpi : E.pi ≠ 0)
    (o : Tpcf) (ho : tpcf E root mach kw C g = .ok o) (i : Nat) (a b : ℚ) (h1 : g.bins.edges[i]? = some a) (h2 : g.bins.edges[i + 1]? = some b) (hab : a ≠ b) :
    ∃ w, o.wp = some (some w) ∧ (columnOf w "corr")[i]? =
      some (.fin (pairsOf (Ring D A a b 0 pm) X X / W * ((N - 1) / N) * L ^ 3 / (E.pi * (b ^ 2 - a ^ 2)) - 2 * pm)) := by
  have hp1 := h.pi1 hp
  have h3 := cube_ne (h.pos a (List.mem_of_getElem? h1)) (h.pos b (List.mem_of_getElem? h2)) hab 2 (by norm_num)
  have hL := h.side.ne'
  obtain ⟨-, w, k1, k2⟩ := wp_bin hP hm h hE hg hmd pm hp _ rfl o ho i (by have := lt_of_next h2; omega) _
    (fun j hj => auto_projected hP hm h hmd pm hp _ rfl hd hs hD hA X hX W hW hW0 N hN hpi o ho i j hj a b h1 h2 hab)
  refine ⟨w, k1, ?_⟩
  rw [k2]
  have key := wp_closed D A a b pm (1 / W * ((N - 1) / N)) (E.pi * (b ^ 2 - a ^ 2) / L ^ 3) ⌊pm⌋.toNat (bins2_proj hmd hp hp1).2.2.2 (by linarith)
    (div_ne_zero (mul_ne_zero hpi h3) (pow_ne_zero 3 hL)) X X
  congr 2
  have e1 : ∀ x y : ℚ, x / W / (E.pi * (b ^ 2 - a ^ 2) * y / L ^ 3) * ((N - 1) / N) - 1 = x * (1 / W * ((N - 1) / N)) / (E.pi * (b ^ 2 - a ^ 2) / L ^ 3 * y) - 1 := by
    intro x y
    ring
  simp only [e1]
  rw [key, div_div_eq_mul_div]
  ring

/-- C140: **the projected cross-correlation function**. -/
theorem cross_wp {P : Nat} {C : Nat → Cat} (hP : ∀ i, (C i).rows.length = P) {E : Env} {root : ℚ → ℚ} {mach : Nat → Option Nat → Mach}
    (hm : ∀ i j, (mach i j).Good P) {kw : Kw} {g : Args} {L : ℚ} {l : Int} (h : InCube C kw g L l) (hE : Sized E g.bins) (hg : g.R1R2 = none) (hmd : g.bins.mode = "projected") (pm : ℚ) (hp : g.bins.pimax = some pm) (d : Nat) (hd : g.data2 = some d) (hne : d ≠ g.data1)
    (hs : g.bins.edges.Pairwise (· ≤ ·)) {D A : Pos → Pos → ℚ} (hD : IsDist2 L D) (hA : IsAlong L l A) (X Y : List Part) (hX : X = (C g.data1).all) (hY : Y = (C d).all)
    (hX0 : (X.map Part.w).sum ≠ 0) (hY0 : (Y.map Part.w).sum ≠ 0) (hpi : E.pi ≠ 0)
    (o : Tpcf) (ho : tpcf E root mach kw C g = .ok o) (i : Nat) (a b : ℚ) (h1 : g.bins.edges[i]? = some a) (h2 : g.bins.edges[i + 1]? = some b) (hab : a ≠ b) :
    ∃ w, o.wp = some (some w) ∧ (columnOf w "corr")[i]? =
      some (.fin (pairsOf (Ring D A a b 0 pm) X Y / ((X.map Part.w).sum * (Y.map Part.w).sum) * L ^ 3 / (E.pi * (b ^ 2 - a ^ 2)) - 2 * pm)) := by
  have hp1 := h.pi1 hp
  have h3 := cube_ne (h.pos a (List.mem_of_getElem? h1)) (h.pos b (List.mem_of_getElem? h2)) hab 2 (by norm_num)
  have hL := h.side.ne'
  obtain ⟨-, w, k1, k2⟩ := wp_bin hP hm h hE hg hmd pm hp _ rfl o ho i (by have := lt_of_next h2; omega) _
    (fun j hj => cross_projected hP hm h hmd pm hp _ rfl d hd hne hs hD hA X Y hX hY hX0 hY0 hpi o ho i j hj a b h1 h2 hab)
  refine ⟨w, k1, ?_⟩
  rw [k2]
  have key := wp_closed D A a b pm (1 / ((X.map Part.w).sum * (Y.map Part.w).sum)) (E.pi * (b ^ 2 - a ^ 2) / L ^ 3) ⌊pm⌋.toNat (bins2_proj hmd hp hp1).2.2.2 (by linarith)
    (div_ne_zero (mul_ne_zero hpi h3) (pow_ne_zero 3 hL)) X Y
  congr 2
  have e1 : ∀ x y z : ℚ, x / z / (E.pi * (b ^ 2 - a ^ 2) * y / L ^ 3) - 1 = x * (1 / z) / (E.pi * (b ^ 2 - a ^ 2) / L ^ 3 * y) - 1 := by
    intro x y z
    ring
  simp only [e1]
  rw [key, div_div_eq_mul_div]
  ring

/-! ## A case -/

/-- Pairs in all bins, and two ranks. -/
def spread : Nat → Cat
  | 0 => ⟨[[at' 1 1 1 1, at' 9 1 1 2], [at' 5 5 1 1, at' 9 2 3 1]], some ⟨10, 10, 10⟩⟩
  | _ => ⟨[[at' 2 1 1 1], [at' 5 7 9 3]], some ⟨10, 10, 10⟩⟩

def wedges (d : Option Nat) : Args := { kind := .sim, bins := ⟨"2d", [1, 3, 5], some 2, none⟩, data1 := 0, data2 := d }
def rings (d : Option Nat) : Args := { kind := .sim, bins := ⟨"projected", [1, 3, 5], none, some (5 / 2)⟩, data1 := 0, data2 := d }

theorem spread_box (i : Nat) : (spread i).box = some ⟨10, 10, 10⟩ := by rcases i with _ | i <;> rfl

theorem in_wedges (d : Option Nat) : InCube spread {} (wedges d) 10 2 :=
  ⟨rfl, rfl, rfl, by show "2d" ≠ "angular"; decide, (Pairs.checkArgs_iff "2d" [1, 3, 5] (some 2) none).mpr (by decide +kernel), by show some 2 ≠ some 0; decide,
    by show ∀ e ∈ [1, 3, 5], e ≤ (10 : ℚ) / 2; decide +kernel, fun _ hp => (by cases hp), by decide, rfl, by norm_num, spread_box _, fun _ _ => spread_box _⟩

theorem in_rings (d : Option Nat) : InCube spread {} (rings d) 10 2 :=
  ⟨rfl, rfl, rfl, by show "projected" ≠ "angular"; decide, (Pairs.checkArgs_iff "projected" [1, 3, 5] none (some (5 / 2))).mpr
    ⟨by decide, by decide, by decide +kernel, by decide, by decide, fun p hp => by cases hp; norm_num⟩, by show none ≠ some 0; decide,
    by show ∀ e ∈ [1, 3, 5], e ≤ (10 : ℚ) / 2; decide +kernel, fun p hp => (by cases hp; norm_num), by decide, rfl, by norm_num, spread_box _, fun _ _ => spread_box _⟩

theorem sized_rings (d : Option Nat) : Sized env0 (rings d).bins := by
  intro c i j x hx dims edges hst
  have hf : ⌊(5 / 2 : ℚ) + 1⌋.toNat = 3 := by decide +kernel
  have hf' : ⌊(5 / 2 : ℚ)⌋.toNat = 2 := by decide +kernel
  have hst' : stateBins (rings d).bins = .ok (["rp", "pi"], [[1, 3, 5], linspace 0 (5 / 2) 3]) := by
    rw [← hf]
    rfl
  rw [hst'] at hst
  obtain ⟨-, rfl⟩ := Prod.mk.inj (Except.ok.inj hst)
  rw [← Except.ok.inj hx]
  simp only [rings, List.length_replicate, Option.getD_none, Option.getD_some, hf', List.map_cons, List.map_nil, linspace, List.length_map, List.length_range]
  decide

/-- The values of `wp`. -/
def wpOf (x : Except Err Tpcf) : Option (List Binned.Val) :=
  match x with
  | .ok o => (o.wp.join).map fun w => columnOf w "corr"
  | .error _ => none

theorem case_2d : corr (tpcf env0 id (fun _ _ => gridMach (2, 1, 1)) {} spread (wedges none)) = some [.fin (86 / 39), .fin (86 / 39), .fin (-1), .fin (-169 / 294)] ∧
    corr (tpcf env0 id (fun _ _ => gridMach (2, 1, 1)) {} spread (wedges (some 1))) = some [.fin (-1 / 26), .fin (49 / 26), .fin (-24 / 49), .fin (-73 / 98)] := by decide +kernel

theorem case_projected : corr (tpcf env0 id (fun _ _ => gridMach (2, 1, 1)) {} spread (rings none)) = some [.fin (16 / 9), .fin (19 / 6), .fin (-1), .fin (-1)] ∧
    wpOf (tpcf env0 id (fun _ _ => gridMach (2, 1, 1)) {} spread (rings none)) = some [.fin (445 / 36), .fin (-5)] ∧
    wpOf (tpcf env0 id (fun _ _ => gridMach (2, 1, 1)) {} spread (rings (some 1))) = some [.fin (10 / 3), .fin (-15 / 8)] := by decide +kernel

/-- Two particles one above the other, at the distance 2. -/
theorem case_along : bin0 2 true ⟨10, 10, 10⟩ (wedges none).bins (at' 1 1 1 1) (at' 1 1 9 1) = none ∧
    bin0 0 true ⟨10, 10, 10⟩ (wedges none).bins (at' 1 1 1 1) (at' 1 1 9 1) = some 0 := by decide +kernel

/-- The hypotheses are met: the theorem for `wp` gives its value from the pairs. -/
theorem case_wp : ∃ D A : Pos → Pos → ℚ, IsDist2 10 D ∧ IsAlong 10 2 A ∧
    pairsOf (Ring D A 1 3 0 (5 / 2)) (spread 0).all (spread 1).all / (5 * 4) * 10 ^ 3 / (3 * (3 ^ 2 - 1 ^ 2)) - 2 * (5 / 2) = 10 / 3 := by
  have hg : ∀ i j, ((fun _ _ => gridMach (2, 1, 1)) i j : Mach).Good 2 := fun (_ : Nat) (_ : Option Nat) => grid_good (2, 1, 1) (by decide) (by decide) (by decide)
  have hP : ∀ i, (spread i).rows.length = 2 := fun i => by rcases i with _ | i <;> rfl
  obtain ⟨D, hD⟩ := dist2_exists 10 (by norm_num)
  obtain ⟨A, hA⟩ := along_exists 10 (by norm_num) 2
  refine ⟨D, A, hD, hA, ?_⟩
  have hc := case_projected.2.2
  cases ho : tpcf env0 id (fun _ _ => gridMach (2, 1, 1)) {} spread (rings (some 1)) with
  | error _ => rw [ho] at hc; cases hc
  | ok o =>
    rw [ho] at hc
    obtain ⟨w, k1, k2⟩ := cross_wp hP hg (in_rings (some 1)) (sized_rings _) rfl rfl (5 / 2) rfl 1 rfl (by decide) (by show List.Pairwise (· ≤ ·) [1, 3, (5 : ℚ)]; decide +kernel) hD hA
      (spread 0).all (spread 1).all rfl rfl (by decide +kernel) (by decide +kernel) (by decide +kernel) o ho 0 1 3 rfl rfl (by norm_num)
    simp only [wpOf, k1, Option.join_some, Option.map_some, Option.some.injEq] at hc
    rw [hc] at k2
    have s1 : ((spread 0).all.map Part.w).sum = 5 := by decide +kernel
    have s2 : ((spread 1).all.map Part.w).sum = 4 := by decide +kernel
    have s3 : env0.pi = 3 := rfl
    rw [s1, s2, s3] at k2
    have := Option.some.inj k2
    injection this with this
    exact this.symm

/-- The hypotheses are met: the mean of the two values `-1/26` and `49/26` comes from the pairs of the shell. -/
theorem case_mean : ∃ D A : Pos → Pos → ℚ, IsDist2 10 D ∧ IsAlong 10 2 A ∧
    pairsOf (Shell D A 1 3) (spread 0).all (spread 1).all / (5 * 4) / (4 / 3 * 3 * (3 ^ 3 - 1 ^ 3) / 10 ^ 3) - 1 = 12 / 13 := by
  have hg : ∀ i j, ((fun _ _ => gridMach (2, 1, 1)) i j : Mach).Good 2 := fun (_ : Nat) (_ : Option Nat) => grid_good (2, 1, 1) (by decide) (by decide) (by decide)
  have hP : ∀ i, (spread i).rows.length = 2 := fun i => by rcases i with _ | i <;> rfl
  obtain ⟨D, hD⟩ := dist2_exists 10 (by norm_num)
  obtain ⟨A, hA⟩ := along_exists 10 (by norm_num) 2
  refine ⟨D, A, hD, hA, ?_⟩
  have hc := case_2d.2
  obtain ⟨o, ho, v, hv, he⟩ := cross_mean_mu hP (E := env0) (root := id) hg (in_wedges (some 1)) rfl 2 rfl (by decide) 1 rfl (by decide)
    (by show List.Pairwise (· ≤ ·) [1, 3, (5 : ℚ)]; decide +kernel) hD hA (spread 0).all (spread 1).all rfl rfl (by decide +kernel) (by decide +kernel) (by decide +kernel) 0 1 3 rfl rfl (by norm_num)
  rw [ho] at hc
  have v0 := hv 0 (by decide)
  have v1 := hv 1 (by decide)
  rw [show columnOf o.corr "corr" = _ from Option.some.inj hc] at v0 v1
  have e0 := Option.some.inj v0
  have e1 := Option.some.inj v1
  injection e0 with e0
  injection e1 with e1
  have s1 : ((spread 0).all.map Part.w).sum = 5 := by decide +kernel
  have s2 : ((spread 1).all.map Part.w).sum = 4 := by decide +kernel
  have s3 : env0.pi = 3 := rfl
  rw [s1, s2, s3] at he
  rw [← he]
  simp only [show List.range 2 = [0, 1] from rfl, List.map_cons, List.map_nil, List.sum_cons, List.sum_nil, ← e0, ← e1]
  norm_num

end NBK.BoxTpcf
