import Verif.BoxTpcf.ValueProps

set_option linter.unusedSimpArgs false

/-! C140: which pairs of particles of a periodic cube are in a bin of the modes '2d' and 'projected', and what is averaged. -/
namespace NBK.BoxTpcf
open NBK PcfObj

/-- The coordinate along the line of sight. -/
def along (los : Int) (p : Pos) : ℚ := if los = 0 then p.x else if los = 1 then p.y else p.z

/-- `A` is the squared distance of nearest images along the line of sight. -/
def IsAlong (L : ℚ) (los : Int) (A : Pos → Pos → ℚ) : Prop := ∀ p q, Least L (along los p - along los q) (A p q)

theorem along_exists (L : ℚ) (hL : 0 < L) (los : Int) : ∃ A, IsAlong L los A :=
  ⟨fun p q => diff2 true L (along los p) (along los q), fun p q => by simpa [diff2] using wrap_least L (along los p) (along los q) hL⟩

theorem par_eq {L : ℚ} (hL : 0 < L) {los : Int} {A : Pos → Pos → ℚ} (hA : IsAlong L los A) (p q : Pos) :
    diff2 true L (order los p).z (order los q).z = A p q := by
  have h := (hA p q).unique (wrap_least L (along los p) (along los q) hL)
  rw [h]
  unfold diff2 order along
  rw [if_pos rfl]
  split
  · rfl
  · split <;> rfl

theorem perp_eq {L : ℚ} (hL : 0 < L) {los : Int} {D A : Pos → Pos → ℚ} (hD : IsDist2 L D) (hA : IsAlong L los A) (p q : Pos) :
    diff2 true L (order los p).x (order los q).x + diff2 true L (order los p).y (order los q).y = D p q - A p q := by
  have h1 := order_sum los (fun x y => diff2 true L x y) p q
  rw [← dist2_eq hL hD p q, par_eq hL hA] at h1
  linarith

theorem linspace_mono (c : ℚ) (h : 0 ≤ c) (n : Nat) : (linspace 0 c (n + 1)).Pairwise (· ≤ ·) ∧ (∀ e ∈ linspace 0 c (n + 1), 0 ≤ e) ∧
    (linspace 0 c (n + 1)).length = n + 1 ∧ ∀ i < n + 1, (linspace 0 c (n + 1)).getD i 0 = c * i / n := by
  have hl : (linspace 0 c (n + 1)).length = n + 1 := by simp [linspace]
  refine ⟨?_, ?_, hl, ?_⟩
  · unfold linspace
    rw [List.pairwise_map]
    apply List.Pairwise.imp _ List.pairwise_lt_range
    intro i j hij
    have h1 : (0 : ℚ) ≤ (c - 0) / ((n + 1 - 1 : Nat) : ℚ) := div_nonneg (by linarith) (Nat.cast_nonneg _)
    have h2 : (i : ℚ) < j := by exact_mod_cast hij
    nlinarith
  · intro e he
    unfold linspace at he
    obtain ⟨i, -, rfl⟩ := List.mem_map.mp he
    have h1 : (0 : ℚ) ≤ (c - 0) / ((n + 1 - 1 : Nat) : ℚ) := div_nonneg (by linarith) (Nat.cast_nonneg _)
    have h2 : (0 : ℚ) ≤ (i : ℚ) := Nat.cast_nonneg _
    nlinarith [mul_nonneg h1 h2]
  · intro i hi
    rw [List.getD_eq_getElem _ _ (by rw [hl]; exact hi)]
    simp [linspace]
    ring

theorem first_iff {b : PcfObj.Bins} (hpos : ∀ e ∈ b.edges, 0 ≤ e) (hs : b.edges.Pairwise (· ≤ ·)) {i : Nat} {a c : ℚ} (h1 : b.edges[i]? = some a)
    (h2 : b.edges[i + 1]? = some c) (s : ℚ) : Pairs.binOf b.edges s = some i ↔ a ^ 2 ≤ s ∧ s < c ^ 2 := by
  rw [Pairs.binOf_iff b.edges hpos hs]
  have hl : i + 1 < b.edges.length := (List.getElem?_eq_some_iff.mp h2).1
  have e1 : b.edges.getD i 0 = a := by rw [List.getD_eq_getElem?_getD, h1]; rfl
  have e2 : b.edges.getD (i + 1) 0 = c := by rw [List.getD_eq_getElem?_getD, h2]; rfl
  rw [e1, e2]
  exact ⟨fun h => h.2, fun h => ⟨hl, h⟩⟩

theorem second_iff (c : ℚ) (h : 0 ≤ c) (n j : Nat) (hj : j < n) (s : ℚ) :
    Pairs.binOf (linspace 0 c (n + 1)) s = some j ↔ (c * j / n) ^ 2 ≤ s ∧ s < (c * (j + 1) / n) ^ 2 := by
  obtain ⟨l1, l2, l3, l4⟩ := linspace_mono c h n
  rw [Pairs.binOf_iff _ l2 l1, l3, l4 j (by omega), l4 (j + 1) (by omega)]
  push_cast
  exact ⟨fun h => h.2, fun h => ⟨by omega, h⟩⟩

/-- C140: a bin of the mode '2d' holds the pairs whose distance and `mu`, the cosine of the angle between the separation and the line of sight, are between
its edges. -/
theorem bin0_2d {L : ℚ} (hL : 0 < L) {D A : Pos → Pos → ℚ} (hD : IsDist2 L D) {los : Int} (hA : IsAlong L los A) (b : PcfObj.Bins) (hm : b.mode = "2d") {n : Nat}
    (hn : b.Nmu = some n) (hpos : ∀ e ∈ b.edges, 0 ≤ e) (hs : b.edges.Pairwise (· ≤ ·)) (p q : Part) (i j : Nat) (hj : j < n) (a c : ℚ)
    (h1 : b.edges[i]? = some a) (h2 : b.edges[i + 1]? = some c) :
    bin0 los true ⟨L, L, L⟩ b p q = some (i * n + j) ↔ (a ^ 2 ≤ D p.pos q.pos ∧ D p.pos q.pos < c ^ 2) ∧
      ((j : ℚ) / n) ^ 2 ≤ A p.pos q.pos / D p.pos q.pos ∧ A p.pos q.pos / D p.pos q.pos < (((j : ℚ) + 1) / n) ^ 2 := by
  have h0 : 0 < n := by omega
  rw [bin0_eq los true ⟨L, L, L⟩ b (fun _ => ⟨rfl, rfl⟩)]
  unfold binOf
  rw [(bins2_2d hm hn).1, (bins2_2d hm hn).2.2]
  simp only [if_pos hm, Option.getD_some]
  rw [perp_eq hL hD hA, par_eq hL hA, sub_add_cancel]
  have e1 : (i * n + j) / n = i := by rw [Nat.mul_comm, Nat.mul_add_div h0, Nat.div_eq_of_lt hj, Nat.add_zero]
  have e2 : (i * n + j) % n = j := by rw [Nat.mul_comm, Nat.mul_add_mod, Nat.mod_eq_of_lt hj]
  rw [Pairs.bin2_spec, e1, e2, first_iff hpos hs h1 h2, second_iff 1 (by norm_num) n j hj]
  simp only [h0, true_and, one_mul]

/-- C140: a bin of the mode 'projected' holds the pairs whose distances across and along the line of sight are between its edges. -/
theorem bin0_projected {L : ℚ} (hL : 0 < L) {D A : Pos → Pos → ℚ} (hD : IsDist2 L D) {los : Int} (hA : IsAlong L los A) (b : PcfObj.Bins) (hm : b.mode = "projected")
    {pm : ℚ} (hp : b.pimax = some pm) (hp1 : 1 ≤ pm) {n : Nat} (hn : n = ⌊pm⌋.toNat) (hpos : ∀ e ∈ b.edges, 0 ≤ e) (hs : b.edges.Pairwise (· ≤ ·)) (p q : Part)
    (i j : Nat) (hj : j < n) (a c : ℚ) (h1 : b.edges[i]? = some a) (h2 : b.edges[i + 1]? = some c) :
    bin0 los true ⟨L, L, L⟩ b p q = some (i * n + j) ↔ (a ^ 2 ≤ D p.pos q.pos - A p.pos q.pos ∧ D p.pos q.pos - A p.pos q.pos < c ^ 2) ∧
      (pm * j / n) ^ 2 ≤ A p.pos q.pos ∧ A p.pos q.pos < (pm * (j + 1) / n) ^ 2 := by
  have h0 : 0 < n := by omega
  have n2 : ¬ b.mode = "2d" := by rw [hm]; decide
  rw [bin0_eq los true ⟨L, L, L⟩ b (fun _ => ⟨rfl, rfl⟩)]
  unfold binOf
  obtain ⟨g1, -, g2, -⟩ := bins2_proj hm hp hp1
  rw [g1, g2, ← hn]
  simp only [if_neg n2, Option.getD_some]
  rw [perp_eq hL hD hA, par_eq hL hA]
  have e1 : (i * n + j) / n = i := by rw [Nat.mul_comm, Nat.mul_add_div h0, Nat.div_eq_of_lt hj, Nat.add_zero]
  have e2 : (i * n + j) % n = j := by rw [Nat.mul_comm, Nat.mul_add_mod, Nat.mod_eq_of_lt hj]
  rw [Pairs.bin2_spec, e1, e2, first_iff hpos hs h1 h2, second_iff pm (by linarith) n j hj]
  simp only [h0, true_and]

/-- C140: what is averaged in a bin is the distance across the line of sight for 'projected', else the distance. -/
theorem sep0_spec {L : ℚ} (hL : 0 < L) {D A : Pos → Pos → ℚ} (hD : IsDist2 L D) {los : Int} (hA : IsAlong L los A) (root : ℚ → ℚ) (b : PcfObj.Bins) (p q : Part) :
    (b.mode = "projected" → sep0 root los true ⟨L, L, L⟩ b p q = root (D p.pos q.pos - A p.pos q.pos)) ∧
    (b.mode ≠ "projected" → sep0 root los true ⟨L, L, L⟩ b p q = root (D p.pos q.pos)) := by
  rw [sep0_eq root los true ⟨L, L, L⟩ b (fun _ => ⟨rfl, rfl⟩)]
  simp only [perp_eq hL hD hA, par_eq hL hA]
  unfold sepOf
  exact ⟨fun h => by rw [if_pos h], fun h => by rw [if_neg h, sub_add_cancel]⟩

/-- C140: a keyword `BoxSize` of three sides is the box with those sides, and any other number of sides is refused; the box that the estimators see is that of
the catalog. -/
theorem box_sides (l : List ℚ) (E : Env) (root : ℚ → ℚ) (mach : Nat → Option Nat → Mach) (k : Kw) (C : Nat → Cat) (g : Args) (i : Nat) :
    (∀ p, boxArg (some l) = .ok (some p) ↔ l = [p.x, p.y, p.z]) ∧ ((boxArg (some l) = .error .valueError) ↔ l.length ≠ 3) ∧
    ∀ p, (envOf E root mach k C g).boxOf i = some [p.x, p.y, p.z] ↔ (C i).box = some p := by
  refine ⟨?_, ?_, ?_⟩
  · intro p
    rcases p with ⟨x, y, z⟩
    match l with
    | [] => simp [boxArg, toPos]
    | [_] => simp [boxArg, toPos]
    | [_, _] => simp [boxArg, toPos]
    | [a, b, c] => simp [boxArg, toPos]
    | _ :: _ :: _ :: _ :: _ => simp [boxArg, toPos]
  · match l with
    | [] => simp [boxArg, toPos]
    | [_] => simp [boxArg, toPos]
    | [_, _] => simp [boxArg, toPos]
    | [a, b, c] => simp [boxArg, toPos]
    | _ :: _ :: _ :: _ :: _ => simp [boxArg, toPos]
  · intro p
    rcases p with ⟨x, y, z⟩
    unfold envOf
    simp only
    cases (C i).box with
    | none => simp
    | some q =>
      rcases q with ⟨a, b, c⟩
      simp [ofPos]

/-- The hypotheses of `bin0_2d` and `bin0_projected` are met: two particles across the face of a cube of side 10. -/
example : bin0 2 true ⟨10, 10, 10⟩ ⟨"2d", [1, 3, 5], some 2, none⟩ ⟨⟨1, 1, 1⟩, 1⟩ ⟨⟨9, 1, 2⟩, 1⟩ = some (0 * 2 + 0) ∧
    bin0 0 true ⟨10, 10, 10⟩ ⟨"2d", [1, 3, 5], some 2, none⟩ ⟨⟨1, 1, 1⟩, 1⟩ ⟨⟨9, 1, 2⟩, 1⟩ = some (0 * 2 + 1) ∧
    bin0 2 true ⟨10, 10, 10⟩ ⟨"projected", [1, 3, 5], none, some 2⟩ ⟨⟨1, 1, 1⟩, 1⟩ ⟨⟨9, 1, 2⟩, 1⟩ = some (0 * 2 + 1) := by decide +kernel

end NBK.BoxTpcf
