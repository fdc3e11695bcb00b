import Verif.FftObj.WideProps

/-!
# Properties of `FFTPower` (C107): a bin of mu holds the modes of `c` bins when there are `c` times as many
-/
set_option linter.unusedSimpArgs false
set_option synthInstance.maxSize 1000
namespace NBK.FftObj
open NBK

theorem muEdges_get (N j : Nat) (hj : j ≤ N) : (muEdges .power N)[j]? = some (-1 + (j : ℚ) * 2 / (N : ℚ)) := by
  unfold muEdges
  simp only [List.getElem?_map, List.getElem?_range (show j < N + 1 by omega), Option.map_some]

/-- The bins of mu: closed below, open above, the last closed. -/
theorem inMu_iff (N j : Nat) (hj : j < N) (v : ℚ) (hv : v ≤ 1) :
    Project.InMuBin (muEdges .power N) j v ↔ -1 + (j : ℚ) * 2 / N ≤ v ∧ (v < -1 + ((j : ℚ) + 1) * 2 / N ∨ j + 1 = N) := by
  have hN : (0 : ℚ) < N := by exact_mod_cast (by omega : 0 < N)
  unfold Project.InMuBin Project.InBin
  rw [muEdges_length, muEdges_get N j (by omega), muEdges_get N (j + 1) (by omega)]
  have hlast : j + 1 = N → -1 + ((j : ℚ) + 1) * 2 / N = 1 := by
    intro h
    have : (j : ℚ) + 1 = N := by exact_mod_cast h
    rw [this]; field_simp; norm_num
  have hstep : -1 + (j : ℚ) * 2 / N < -1 + ((j : ℚ) + 1) * 2 / N := by
    have : (j : ℚ) * 2 / N < ((j : ℚ) + 1) * 2 / N := by rw [div_lt_div_iff_of_pos_right hN]; linarith
    linarith
  constructor
  · rintro (⟨lo, up, e1, e2, e3, e4⟩ | ⟨h1, h2⟩)
    · cases e1; cases e2; push_cast at e4; exact ⟨e3, .inl e4⟩
    · have h3 := Option.some.inj h2
      push_cast at h3
      exact ⟨by linarith, .inr (by omega)⟩
  · rintro ⟨h1, h2⟩
    by_cases h : v < -1 + ((j : ℚ) + 1) * 2 / N
    · exact .inl ⟨_, _, rfl, rfl, h1, by push_cast; exact h⟩
    · have h3 := h2.resolve_left h
      refine .inr ⟨by omega, ?_⟩
      have := hlast h3
      push_cast
      congr 1
      linarith

open Classical in
theorem mu_pieces (l : List Project.Mode) (hl : ∀ m ∈ l, m.mu ≤ 1) (Q : Project.Mode → Prop) (N c j : Nat) (hj : j < N) (hc : 0 < c) (f : Project.Mode → ℚ) :
    ((l.filter fun m => decide (Q m ∧ Project.InMuBin (muEdges .power N) j m.mu)).map f).sum =
      ((List.range c).map fun s => ((l.filter fun m => decide (Q m ∧ Project.InMuBin (muEdges .power (c * N)) (c * j + s) m.mu)).map f).sum).sum := by
  have hN : (0 : ℚ) < N := by exact_mod_cast (by omega : 0 < N)
  have hcq : (0 : ℚ) < c := by exact_mod_cast hc
  have hmul : c * j + c ≤ c * N := by
    have := Nat.mul_le_mul_left c (show j + 1 ≤ N from hj)
    rw [Nat.mul_add, Nat.mul_one] at this
    exact this
  have step : ∀ t, t ≤ c → ((l.filter fun m => decide (Q m ∧ -1 + ((c * j : Nat) : ℚ) * 2 / (c * N : Nat) ≤ m.mu ∧
      (m.mu < -1 + ((c * j + t : Nat) : ℚ) * 2 / (c * N : Nat) ∨ (0 < t ∧ c * j + t = c * N)))).map f).sum =
      ((List.range t).map fun s => ((l.filter fun m => decide (Q m ∧ Project.InMuBin (muEdges .power (c * N)) (c * j + s) m.mu)).map f).sum).sum := by
    intro t
    induction t with
    | zero =>
      intro _
      have : (l.filter fun m => decide (Q m ∧ -1 + ((c * j : Nat) : ℚ) * 2 / (c * N : Nat) ≤ m.mu ∧
          (m.mu < -1 + ((c * j + 0 : Nat) : ℚ) * 2 / (c * N : Nat) ∨ (0 < 0 ∧ c * j + 0 = c * N)))) = [] := by
        rw [List.filter_eq_nil_iff]
        intro m _
        rw [decide_eq_true_eq]
        rintro ⟨_, h1, h2 | h2⟩
        · rw [Nat.add_zero] at h2; linarith
        · omega
      rw [this]; rfl
    | succ t ih =>
      intro ht
      rw [List.range_succ, List.map_append, List.sum_append, ← ih (by omega), List.map_singleton, List.sum_singleton]
      have hin : (l.filter fun m => decide (Q m ∧ Project.InMuBin (muEdges .power (c * N)) (c * j + t) m.mu)) =
          l.filter fun m => decide (Q m ∧ -1 + ((c * j + t : Nat) : ℚ) * 2 / (c * N : Nat) ≤ m.mu ∧
            (m.mu < -1 + ((c * j + (t + 1) : Nat) : ℚ) * 2 / (c * N : Nat) ∨ c * j + (t + 1) = c * N)) := by
        apply List.filter_congr
        intro m hm
        rw [decide_eq_decide, inMu_iff (c * N) (c * j + t) (by omega) m.mu (hl m hm),
          show ((c * j + (t + 1) : Nat) : ℚ) = ((c * j + t : Nat) : ℚ) + 1 by push_cast; ring]
        rfl
      rw [hin]
      have hcN : (0 : ℚ) < (c * N : Nat) := by push_cast; positivity
      have g1 : -1 + ((c * j : Nat) : ℚ) * 2 / (c * N : Nat) ≤ -1 + ((c * j + t : Nat) : ℚ) * 2 / (c * N : Nat) := by
        have : ((c * j : Nat) : ℚ) * 2 / (c * N : Nat) ≤ ((c * j + t : Nat) : ℚ) * 2 / (c * N : Nat) := by
          rw [div_le_div_iff_of_pos_right hcN]; push_cast; linarith [(Nat.cast_nonneg t : (0 : ℚ) ≤ t)]
        linarith
      have g2 : -1 + ((c * j + t : Nat) : ℚ) * 2 / (c * N : Nat) ≤ -1 + ((c * j + (t + 1) : Nat) : ℚ) * 2 / (c * N : Nat) := by
        have : ((c * j + t : Nat) : ℚ) * 2 / (c * N : Nat) ≤ ((c * j + (t + 1) : Nat) : ℚ) * 2 / (c * N : Nat) := by
          rw [div_le_div_iff_of_pos_right hcN]; push_cast; linarith
        linarith
      apply sum_split l
        (fun m => Q m ∧ -1 + ((c * j : Nat) : ℚ) * 2 / (c * N : Nat) ≤ m.mu ∧
          (m.mu < -1 + ((c * j + (t + 1) : Nat) : ℚ) * 2 / (c * N : Nat) ∨ (0 < t + 1 ∧ c * j + (t + 1) = c * N)))
        (fun m => Q m ∧ -1 + ((c * j : Nat) : ℚ) * 2 / (c * N : Nat) ≤ m.mu ∧
          (m.mu < -1 + ((c * j + t : Nat) : ℚ) * 2 / (c * N : Nat) ∨ (0 < t ∧ c * j + t = c * N)))
        (fun m => Q m ∧ -1 + ((c * j + t : Nat) : ℚ) * 2 / (c * N : Nat) ≤ m.mu ∧
          (m.mu < -1 + ((c * j + (t + 1) : Nat) : ℚ) * 2 / (c * N : Nat) ∨ c * j + (t + 1) = c * N))
      · intro m
        constructor
        · rintro ⟨h0, h1, h2⟩
          rcases lt_or_ge m.mu (-1 + ((c * j + t : Nat) : ℚ) * 2 / (c * N : Nat)) with h | h
          · exact .inl ⟨h0, h1, .inl h⟩
          · exact .inr ⟨h0, h, h2.imp id fun h => h.2⟩
        · rintro (⟨h0, h1, h2⟩ | ⟨h0, h1, h2⟩)
          · rcases h2 with h2 | h2
            · exact ⟨h0, h1, .inl (by linarith)⟩
            · omega
          · exact ⟨h0, by linarith, h2.imp id fun h => ⟨by omega, h⟩⟩
      · rintro m ⟨_, _, h2⟩ ⟨_, h3, _⟩
        rcases h2 with h2 | h2
        · linarith
        · omega
  rw [← step c (le_refl _)]
  have : (l.filter fun m => decide (Q m ∧ Project.InMuBin (muEdges .power N) j m.mu)) =
      l.filter fun m => decide (Q m ∧ -1 + ((c * j : Nat) : ℚ) * 2 / (c * N : Nat) ≤ m.mu ∧
        (m.mu < -1 + ((c * j + c : Nat) : ℚ) * 2 / (c * N : Nat) ∨ (0 < c ∧ c * j + c = c * N))) := by
    apply List.filter_congr
    intro m hm
    rw [decide_eq_decide, inMu_iff N j hj m.mu (hl m hm)]
    have q1 : (j : ℚ) * 2 / N = ((c * j : Nat) : ℚ) * 2 / (c * N : Nat) := by push_cast; field_simp
    have q2 : ((j : ℚ) + 1) * 2 / N = ((c * j + c : Nat) : ℚ) * 2 / (c * N : Nat) := by push_cast; field_simp
    have q3 : j + 1 = N ↔ 0 < c ∧ c * j + c = c * N := by
      constructor
      · rintro rfl; exact ⟨hc, by ring⟩
      · rintro ⟨_, h⟩
        exact Nat.eq_of_mul_eq_mul_left hc (by rw [Nat.mul_add, Nat.mul_one]; exact h)
    rw [q1, q2, q3]
  rw [this]

/-- The table with `c` times as many bins of mu. -/
theorem statData_mu (modes : List (List (List Project.Mode))) (hg : GoodModes modes) (hw : ∀ m ∈ Project.modes modes, 0 < m.w) (a b d : ℚ) (hd : 0 < d)
    (ha : 0 ≤ a) (c : Nat) (hc : 0 < c) (N : Nat) (poles : List Nat) (i j : Nat) (hi : i + 1 < (arange a b d).length) (hj : j < N) :
    let t := statData .power false (arange a b d) (muEdges .power (c * N)) modes poles
    let t' := statData .power false (arange a b d) (muEdges .power N) modes poles
    entry t' "modes" (i * N + j) = ((List.range c).map fun s => entry t "modes" (i * (c * N) + (c * j + s))).sum ∧
    ∀ col ∈ ["k", "mu", "power.real", "power.imag"], entry t' col (i * N + j) * entry t' "modes" (i * N + j) =
      ((List.range c).map fun s => entry t col (i * (c * N) + (c * j + s)) * entry t "modes" (i * (c * N) + (c * j + s))).sum := by
  classical
  intro t t'
  obtain ⟨n, hn⟩ : ∃ n, (arange a b d).length = n + 1 := ⟨(arange a b d).length - 1, by omega⟩
  have hcN : 0 < c * N := Nat.mul_pos hc (by omega)
  have hlt : ∀ s, s < c → c * j + s < c * N := by
    intro s hs
    have := Nat.mul_le_mul_left c (show j + 1 ≤ N from hj)
    rw [Nat.mul_add, Nat.mul_one] at this
    omega
  have hmu : ∀ m ∈ Project.modes modes, m.mu ≤ 1 := fun m hm => (hg m hm).2.2.2
  have split : ∀ f : Project.Mode → ℚ,
      (((Project.modes modes).filter fun m => decide (a + i * d ≤ m.x ∧ m.x < a + (i + 1) * d ∧ Project.InMuBin (muEdges .power N) j m.mu)).map f).sum =
      ((List.range c).map fun s => (((Project.modes modes).filter fun m => decide (a + i * d ≤ m.x ∧ m.x < a + (i + 1) * d ∧
        Project.InMuBin (muEdges .power (c * N)) (c * j + s) m.mu)).map f).sum).sum := by
    intro f
    have h := mu_pieces (Project.modes modes) hmu (fun m => a + i * d ≤ m.x ∧ m.x < a + (i + 1) * d) N c j hj hc f
    simp only [and_assoc] at h
    exact h
  have hW : ∀ p : Project.Mode → Bool, ∀ m ∈ (Project.modes modes).filter p, 0 < m.w := fun p m hm => hw m (List.mem_filter.mp hm).1
  obtain ⟨k1, k2, k3, k4, k5⟩ := entries modes hg a b d hd ha n N hn (by omega) false poles i j (by omega) hj
  have fine := fun s (hs : s < c) => entries modes hg a b d hd ha n (c * N) hn hcN false poles i (c * j + s) (by omega) (hlt s hs)
  have colEq : ∀ (col : String) (f : Project.Mode → ℚ),
      entry t' col (i * N + j) = toQ (val (Project.mean f ((Project.modes modes).filter fun m => decide (a + i * d ≤ m.x ∧ m.x < a + (i + 1) * d ∧
        Project.InMuBin (muEdges .power N) j m.mu)))) →
      (∀ s, s < c → entry t col (i * (c * N) + (c * j + s)) = toQ (val (Project.mean f ((Project.modes modes).filter fun m =>
        decide (a + i * d ≤ m.x ∧ m.x < a + (i + 1) * d ∧ Project.InMuBin (muEdges .power (c * N)) (c * j + s) m.mu))))) →
      entry t' col (i * N + j) * entry t' "modes" (i * N + j) =
        ((List.range c).map fun s => entry t col (i * (c * N) + (c * j + s)) * entry t "modes" (i * (c * N) + (c * j + s))).sum := by
    intro col f h1 h2
    rw [h1, show entry t' "modes" (i * N + j) = _ from k5, mean_total _ (hW _) f, split f]
    congr 1
    apply List.map_congr_left
    intro s hs
    have hs' := List.mem_range.mp hs
    rw [h2 s hs', show entry t "modes" (i * (c * N) + (c * j + s)) = _ from (fine s hs').2.2.2.2, mean_total _ (hW _) f]
  refine ⟨?_, ?_⟩
  · refine k5.trans ((split _).trans ?_)
    congr 1
    apply List.map_congr_left
    intro s hs
    exact (fine s (List.mem_range.mp hs)).2.2.2.2.symm
  · intro col hcol
    simp only [List.mem_cons, List.not_mem_nil, or_false] at hcol
    rcases hcol with rfl | rfl | rfl | rfl
    · exact colEq _ _ k1 fun s hs => (fine s hs).1
    · exact colEq _ _ (k2 rfl) fun s hs => (fine s hs).2.1 rfl
    · exact colEq _ _ k3 fun s hs => (fine s hs).2.2.1
    · exact colEq _ _ k4 fun s hs => (fine s hs).2.2.2.1

/-- C107: two calls in two dimensions that differ only in the number of bins of mu, the first with `c` times as many: in every row of the second, the number of
modes is the sum of those of the `c` rows of the first that fill the bin, and k, mu and the power are their means weighted by the number of modes. -/
theorem wide_mu (e : Env) (first : Src) (second : Option Src) (g : Args) (d : ℚ) (hdx : g.dx = some d) (hd : 0 < d) (ha : 0 ≤ g.xmin) (hmode : g.mode = "2d")
    (c : Nat) (hc : 0 < c) (N : Nat) (hg : ∀ m1 m2, castBoth g.box g.nmesh first second = .ok (m1, m2) → GoodModes (e.stat3d .power m1.nmesh m1.src m2.src) ∧
      ∀ m ∈ Project.modes (e.stat3d .power m1.nmesh m1.src m2.src), 0 < m.w) (o o' : Obj)
    (h : new e .power first second { g with Nmu := c * N } = .ok o) (h' : new e .power first second { g with Nmu := N } = .ok o')
    (i j : Nat) (hi : i + 1 < (o'.stat.edges.headD []).length) (hj : j < N) :
    entry o'.stat.data "modes" (i * N + j) = ((List.range c).map fun s => entry o.stat.data "modes" (i * (c * N) + (c * j + s))).sum ∧
    ∀ col ∈ ["k", "mu", "power.real", "power.imag"], entry o'.stat.data col (i * N + j) * entry o'.stat.data "modes" (i * N + j) =
      ((List.range c).map fun s => entry o.stat.data col (i * (c * N) + (c * j + s)) * entry o.stat.data "modes" (i * (c * N) + (c * j + s))).sum := by
  obtain ⟨hm, los, l1, l2, l3, m1, m2, hcb, hr⟩ := (new_eq e .power first second _ o).mp h
  obtain ⟨hm', los', l1', l2', l3', m1', m2', hcb', hr'⟩ := (new_eq e .power first second _ o').mp h'
  have e1 : los' = los := Option.some.inj (l1'.symm.trans l1)
  have e2 : (Except.ok (m1', m2') : Except Err (Mesh × Mesh)) = .ok (m1, m2) := hcb'.symm.trans hcb
  cases e1; cases e2
  obtain ⟨hgood, hw⟩ := hg m1 m2 hcb
  obtain ⟨ed, cs, hbn, hne, hnd, hpos, rfl⟩ := run_ok e .power _ m1 m2 hm o hr
  obtain ⟨ed', cs', hbn', hne', hnd', hpos', rfl⟩ := run_ok e .power _ m1 m2 hm' o' hr'
  have hdx1 : g.dx.getD (dxDefault e .power m1.box m1.nmesh) = d := by rw [hdx]; rfl
  obtain ⟨b, x1, x2⟩ : ∃ b, ed = arange g.xmin b d ∧ ed' = arange g.xmin b d := by
    rw [xBins_pos e .power _ _ (by unfold inAttrs; dsimp only; rw [hdx1]; exact hd)] at hbn hbn'
    unfold inAttrs at hbn hbn'
    dsimp only at hbn hbn'
    rw [hdx1] at hbn hbn'
    exact ⟨_, (Prod.mk.inj (Except.ok.inj hbn)).1.symm, (Prod.mk.inj (Except.ok.inj hbn')).1.symm⟩
  subst x1; subst x2
  have hne1 : ¬ g.mode = "1d" := by rw [hmode]; decide
  have hi' : i + 1 < (arange g.xmin b d).length := by
    unfold outStat at hi
    dsimp only at hi
    split_ifs at hi <;> exact hi
  have hs := statData_mu _ hgood hw g.xmin b d hd ha c hc N ((g.poles.getD []).map Int.toNat) i j hi' hj
  unfold outStat inAttrs usedNmu
  dsimp only
  simp only [hne1, if_false, decide_false] at hs ⊢
  exact hs

/-- The arguments of the case in two dimensions. -/
def mus : Args := { mode := "2d", dx := some 1, xmax := some 4 }

/-- C107: the hypotheses of `wide_mu` hold: four bins of mu, and two. -/
theorem mu_case :
    ((new env .power cat none { mus with Nmu := 2 * 2 }).toOption.map fun o => numbers o.stat) =
      some [("k", [0, 0, 0, 0, 0, 0, 0, 1, 0, 0, 0, 2]), ("mu", [0, 0, 0, 0, 0, 0, 0, 1, 0, 0, 0, 1 / 2]), ("power.real", [0, 0, 0, 0, 0, 0, 0, 4, 0, 0, 0, 6]),
        ("power.imag", [0, 0, 0, 0, 0, 0, 0, 0, 0, 0, 0, 0]), ("modes", [0, 0, 1, 0, 0, 0, 0, 1, 0, 0, 0, 2])] ∧
    ((new env .power cat none { mus with Nmu := 2 }).toOption.map fun o => numbers o.stat) =
      some [("k", [0, 0, 0, 1, 0, 2]), ("mu", [0, 0, 0, 1, 0, 1 / 2]), ("power.real", [0, 0, 0, 4, 0, 6]), ("power.imag", [0, 0, 0, 0, 0, 0]),
        ("modes", [0, 1, 0, 1, 0, 2])] := by
  refine ⟨by decide +kernel, by decide +kernel⟩

end NBK.FftObj
