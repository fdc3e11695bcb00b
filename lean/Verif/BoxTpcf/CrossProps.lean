import Verif.BoxTpcf.ValueProps
import Verif.BoxTpcf.CaseProps
import Verif.PcfObj.CrossProps

set_option linter.unusedSimpArgs false

/-!
# Values of cross correlations in a periodic cube
-/
namespace NBK.BoxTpcf
open NBK.PcfObj

/-- C140: the values of the cross correlation of two catalogs in a periodic cube: the pairs with nearest images at distances `[a, b)`, as a fraction of all pairs, over the volume of the shell,
as a fraction of the cube, less one. -/
theorem cross_value {P : Nat} {C : Nat → Cat} (hP : ∀ i, (C i).rows.length = P) {E : Env} {root : ℚ → ℚ} {mach : Nat → Option Nat → Mach}
    (hm : ∀ i j, (mach i j).Good P) {kw : Kw} {g : Args} {L : ℚ} {l : Int} (h : Cube C kw g L l) (d : Nat) (hd : g.data2 = some d) (hne : d ≠ g.data1)
    (hs : g.bins.edges.Pairwise (· ≤ ·)) {D : Pos → Pos → ℚ} (hD : IsDist2 L D) (X Y : List Part) (hX : X = (C g.data1).all) (hY : Y = (C d).all)
    (hX0 : (X.map Part.w).sum ≠ 0) (hY0 : (Y.map Part.w).sum ≠ 0) (hpi : E.pi ≠ 0)
    (o : Tpcf) (ho : tpcf E root mach kw C g = .ok o) (i : Nat) (a b : ℚ) (h1 : g.bins.edges[i]? = some a) (h2 : g.bins.edges[i + 1]? = some b) (hab : a ≠ b) :
    (columnOf o.corr "corr")[i]? = some (.fin (pairsIn D a b X Y / ((X.map Part.w).sum * (Y.map Part.w).sum) / (4 / 3 * E.pi * (b ^ 3 - a ^ 3) / L ^ 3) - 1)) := by
  have hL := h.side
  have hc := h.count hP (E := E) (root := root) hm
  rw [hd] at hc
  simp only [Option.map_some] at hc
  have hdec : decide (some d = some g.data1) = false := by simp [hne]
  rw [hdec] at hc
  have hil : i < g.bins.edges.length - 1 := by
    rw [List.getElem?_eq_some_iff] at h2
    have := h2.1
    omega
  have hpos0 : ∀ e ∈ g.bins.edges, 0 ≤ e := fun e he => (h.pos e he).le
  have ha0 := h.pos a (List.mem_of_getElem? h1)
  have hb0 := h.pos b (List.mem_of_getElem? h2)
  have h3ne : b ^ 3 - a ^ 3 ≠ 0 := by
    intro h0
    have : b ^ 3 = a ^ 3 := by linarith
    exact hab ((pow_left_inj₀ hb0.le ha0.le (by norm_num)).mp this).symm
  have len : ∀ Z : List Part, (Z.map Part.w).sum ≠ 0 → (Z.length : ℚ) ≠ 0 := by
    intro Z hZ h0
    have : Z.length = 0 := by exact_mod_cast h0
    rw [List.length_eq_zero_iff] at this
    rw [this] at hZ
    exact hZ rfl
  have hV : ((L ^ 3 : ℚ)) = (g.box.getD (((envOf E root mach kw C g).boxOf g.data1).getD [0, 0, 0])).prod := by
    rw [h.noArg]
    simp only [envOf, h.box1, ofPos, Option.map_some, Option.getD_some, Option.getD_none, List.prod_cons, List.prod_nil]
    ring
  have ht : (direct root l true ⟨L, L, L⟩ g.bins (C g.data1).all (some (C d).all) false).total = 1 / 2 * (X.map Part.w).sum * (Y.map Part.w).sum := by
    simp only [direct, total, ← hX, ← hY, Bool.false_eq_true, if_false, Option.elim_some]
  have key := natural_1d_cross (envOf E root mach kw C g) g h.kind h.per h.rand d hd h.mode o ho _ hc rfl i a b
    (tallyN (bin0 l true ⟨L, L, L⟩ g.bins) X Y i) (pairsIn D a b X Y) h1 h2 (by
      simp only [direct, tally, Option.getD_some, (bins2_1d h.mode).2]
      rw [List.getElem?_map, List.getElem?_range hil, ← hX, ← hY, Option.map_some, tally_in hL hD l g.bins h.mode hpos0 hs X Y i a b h1 h2]) X.length Y.length (L ^ 3) (by
      simp only [envOf]
      rw [csize_all, ← hX]) (by
      simp only [envOf]
      rw [csize_all, ← hY]) hV (len X hX0) (len Y hY0) (by
      rw [ht]
      exact mul_ne_zero (mul_ne_zero (by norm_num) hX0) hY0) (by
      have : (envOf E root mach kw C g).pi = E.pi := rfl
      rw [this]
      exact div_ne_zero (mul_ne_zero hpi h3ne) (pow_ne_zero 3 hL.ne'))
  rw [key, ht]
  have hpe : (envOf E root mach kw C g).pi = E.pi := rfl
  rw [hpe]
  congr 3
  have hL3 : L ≠ 0 := hL.ne'
  have l1 := len X hX0
  have l2 := len Y hY0
  generalize (X.length : ℚ) = n1 at l1
  generalize (Y.length : ℚ) = n2 at l2
  generalize (X.map Part.w).sum = w1 at hX0
  generalize (Y.map Part.w).sum = w2 at hY0
  field_simp
  try ring

/-- C140: cross correlations of samples of weights that are not negative are never below -1. -/
theorem cross_bound {P : Nat} {C : Nat → Cat} (hP : ∀ i, (C i).rows.length = P) {E : Env} {root : ℚ → ℚ} {mach : Nat → Option Nat → Mach}
    (hm : ∀ i j, (mach i j).Good P) {kw : Kw} {g : Args} {L : ℚ} {l : Int} (h : Cube C kw g L l) (d : Nat) (hd : g.data2 = some d) (hne : d ≠ g.data1)
    (hs : g.bins.edges.Pairwise (· ≤ ·)) (hX : ∀ p ∈ (C g.data1).all, 0 ≤ p.w) (hY : ∀ p ∈ (C d).all, 0 ≤ p.w)
    (hX0 : ((C g.data1).all.map Part.w).sum ≠ 0) (hY0 : ((C d).all.map Part.w).sum ≠ 0) (hpi : 0 < E.pi)
    (o : Tpcf) (ho : tpcf E root mach kw C g = .ok o) (i : Nat) (a b : ℚ) (h1 : g.bins.edges[i]? = some a) (h2 : g.bins.edges[i + 1]? = some b) (hab : a ≠ b) :
    ∃ v, (columnOf o.corr "corr")[i]? = some (.fin v) ∧ -1 ≤ v := by
  obtain ⟨D, hD⟩ := dist2_exists L h.side
  refine ⟨_, cross_value hP hm h d hd hne hs hD _ _ rfl rfl hX0 hY0 hpi.ne' o ho i a b h1 h2 hab, ?_⟩
  have hn := pairsIn_nonneg D a b (C g.data1).all (C d).all hX hY
  have hle : a ≤ b := by
    obtain ⟨i1, j1⟩ := List.getElem?_eq_some_iff.1 h1
    obtain ⟨i2, j2⟩ := List.getElem?_eq_some_iff.1 h2
    rw [← j1, ← j2]
    exact List.pairwise_iff_getElem.1 hs i (i + 1) i1 i2 (by omega)
  have h3 : 0 ≤ b ^ 3 - a ^ 3 := sub_nonneg.2 (pow_le_pow_left₀ (h.pos a (List.mem_of_getElem? h1)).le hle 3)
  have hw1 : 0 ≤ ((C g.data1).all.map Part.w).sum := sum_nonneg' _ _ hX
  have hw2 : 0 ≤ ((C d).all.map Part.w).sum := sum_nonneg' _ _ hY
  have hL := h.side
  have : 0 ≤ pairsIn D a b (C g.data1).all (C d).all / (((C g.data1).all.map Part.w).sum * ((C d).all.map Part.w).sum) / (4 / 3 * E.pi * (b ^ 3 - a ^ 3) / L ^ 3) :=
    div_nonneg (div_nonneg hn (mul_nonneg hw1 hw2)) (div_nonneg (mul_nonneg (by positivity) h3) (by positivity))
  linarith

/-- C140: **a mixture** of two samples `d1` and `d2` as the second sample `d`: one plus the correlation is the mean of those of the two, by the sums of their weights. -/
theorem cross_mixture {P : Nat} {C : Nat → Cat} (hP : ∀ i, (C i).rows.length = P) {E : Env} {root : ℚ → ℚ} {mach : Nat → Option Nat → Mach}
    (hm : ∀ i j, (mach i j).Good P) {kw : Kw} {g : Args} {L : ℚ} {l : Int} (d d1 d2 : Nat) (hn : d ≠ g.data1 ∧ d1 ≠ g.data1 ∧ d2 ≠ g.data1)
    (h : ∀ k, k = d ∨ k = d1 ∨ k = d2 → Cube C kw { g with data2 := some k } L l) (hmix : (C d).all.Perm ((C d1).all ++ (C d2).all))
    (hs : g.bins.edges.Pairwise (· ≤ ·)) (W1 W2 : ℚ) (hW1 : W1 = ((C d1).all.map Part.w).sum) (hW2 : W2 = ((C d2).all.map Part.w).sum)
    (hX0 : ((C g.data1).all.map Part.w).sum ≠ 0) (h10 : W1 ≠ 0) (h20 : W2 ≠ 0) (h12 : W1 + W2 ≠ 0) (hpi : E.pi ≠ 0)
    (o : Nat → Tpcf) (ho : ∀ k, k = d ∨ k = d1 ∨ k = d2 → tpcf E root mach kw C { g with data2 := some k } = .ok (o k))
    (i : Nat) (a b : ℚ) (h1 : g.bins.edges[i]? = some a) (h2 : g.bins.edges[i + 1]? = some b) (hab : a ≠ b) :
    ∃ v v1 v2, (columnOf (o d).corr "corr")[i]? = some (.fin v) ∧ (columnOf (o d1).corr "corr")[i]? = some (.fin v1) ∧ (columnOf (o d2).corr "corr")[i]? = some (.fin v2) ∧
      1 + v = (W1 * (1 + v1) + W2 * (1 + v2)) / (W1 + W2) := by
  have hL := (h d (Or.inl rfl)).side
  obtain ⟨D, hD⟩ := dist2_exists L hL
  have hsum : ((C d).all.map Part.w).sum = W1 + W2 := by rw [(hmix.map _).sum_eq, List.map_append, List.sum_append, hW1, hW2]
  have k0 := cross_value hP hm (h d (Or.inl rfl)) d rfl hn.1 hs hD _ _ rfl rfl hX0 (by rw [hsum]; exact h12) hpi (o d) (ho d (Or.inl rfl)) i a b h1 h2 hab
  have k1 := cross_value hP hm (h d1 (Or.inr (Or.inl rfl))) d1 rfl hn.2.1 hs hD _ _ rfl rfl hX0 (by rw [← hW1]; exact h10) hpi (o d1) (ho d1 (Or.inr (Or.inl rfl))) i a b h1 h2 hab
  have k2 := cross_value hP hm (h d2 (Or.inr (Or.inr rfl))) d2 rfl hn.2.2 hs hD _ _ rfl rfl hX0 (by rw [← hW2]; exact h20) hpi (o d2) (ho d2 (Or.inr (Or.inr rfl))) i a b h1 h2 hab
  refine ⟨_, _, _, k0, k1, k2, ?_⟩
  have hp : pairsIn D a b (C g.data1).all (C d).all = pairsIn D a b (C g.data1).all (C d1).all + pairsIn D a b (C g.data1).all (C d2).all := by
    rw [← pairsIn_append_right]
    unfold pairsIn
    congr 1
    apply List.map_congr_left
    intro p _
    exact (hmix.map _).sum_eq
  have ha0 := (h d (Or.inl rfl)).pos a (List.mem_of_getElem? h1)
  have hb0 := (h d (Or.inl rfl)).pos b (List.mem_of_getElem? h2)
  have h3ne : b ^ 3 - a ^ 3 ≠ 0 := by
    intro h0
    have : b ^ 3 = a ^ 3 := by linarith
    exact hab ((pow_left_inj₀ hb0.le ha0.le (by norm_num)).mp this).symm
  rw [hsum, hp, ← hW1, ← hW2]
  have hL3 : L ≠ 0 := hL.ne'
  generalize ((C g.data1).all.map Part.w).sum = w at hX0
  generalize pairsIn D a b (C g.data1).all (C d1).all = p1
  generalize pairsIn D a b (C g.data1).all (C d2).all = p2
  field_simp
  try ring

/-! ## A case -/

/-- A first sample, and a second one (1) that is made of two others (2 and 3). -/
def mixed : Nat → Cat
  | 0 => one
  | 1 => ⟨[[at' 2 1 1 1, at' 5 7 1 3]], some ⟨10, 10, 10⟩⟩
  | 2 => ⟨[[at' 2 1 1 1]], some ⟨10, 10, 10⟩⟩
  | _ => ⟨[[at' 5 7 1 3]], some ⟨10, 10, 10⟩⟩

theorem cube_mixed (k : Nat) : Cube mixed {} { args1 with data2 := some k } 10 2 :=
  ⟨rfl, rfl, rfl, rfl, rfl, rfl, (cube_two one rfl).ne, (cube_two one rfl).pos, (cube_two one rfl).le, by decide, rfl, by norm_num, rfl, fun d _ => by
    rcases d with _ | _ | _ | d <;> rfl⟩

/-- The values of both bins. -/
theorem case_cross : corr (tpcf env0 id (fun _ _ => gridMach (1, 1, 1)) {} mixed { args1 with data2 := some 1 }) =
    some [.fin (4 / 16 / (4 * 26 / 1000) - 1), .fin (2 / 16 / (4 * 98 / 1000) - 1)] := by decide +kernel

/-- The mixture is the mean of its parts, and all are at least -1. -/
theorem case_mixture : ∃ o : Nat → Tpcf, ∃ v v1 v2 : ℚ, (columnOf (o 1).corr "corr")[0]? = some (.fin v) ∧ (columnOf (o 2).corr "corr")[0]? = some (.fin v1) ∧
    (columnOf (o 3).corr "corr")[0]? = some (.fin v2) ∧ 1 + v = (1 * (1 + v1) + 3 * (1 + v2)) / (1 + 3) ∧ -1 ≤ v := by
  have hg : ∀ i j, ((fun _ _ => gridMach (1, 1, 1)) i j : Mach).Good 1 := fun (_ : Nat) (_ : Option Nat) => grid_good (1, 1, 1) (by decide) (by decide) (by decide)
  have hP : ∀ i, (mixed i).rows.length = 1 := fun i => by rcases i with _ | _ | _ | i <;> rfl
  have hmade : ∀ k, ∃ o, tpcf env0 id (fun _ _ => gridMach (1, 1, 1)) {} mixed { args1 with data2 := some k } = .ok o := fun k => (cube_mixed k).made (E := env0) (root := id) hP hg
  choose o ho using hmade
  obtain ⟨v, v1, v2, e0, e1, e2, e3⟩ := cross_mixture (E := env0) (root := id) (g := args1) hP hg 1 2 3 (by decide) (fun k _ => cube_mixed k) (by decide +kernel) (by decide +kernel) 1 3
    (by decide +kernel) (by decide +kernel) (by decide +kernel) (by norm_num) (by norm_num) (by norm_num) (by decide +kernel) o (fun k _ => ho k) 0 1 3 rfl rfl (by norm_num)
  obtain ⟨w, f1, f2⟩ := cross_bound (E := env0) (root := id) hP hg (cube_mixed 1) 1 rfl (by decide) (by decide +kernel) (by decide +kernel) (by decide +kernel) (by decide +kernel)
    (by decide +kernel) (by decide +kernel) (o 1) (ho 1) 0 1 3 rfl rfl (by norm_num)
  rw [e0] at f1
  have hvw : v = w := by
    have := Option.some.inj f1
    injection this
  exact ⟨o, v, v1, v2, e0, e1, e2, e3, hvw ▸ f2⟩

end NBK.BoxTpcf
