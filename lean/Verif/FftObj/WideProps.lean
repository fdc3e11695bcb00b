import Verif.FftObj.RangeProps

/-!
# Properties of `FFTPower` (C107): bins `c` times as wide hold the modes of `c` bins
-/
set_option linter.unusedSimpArgs false
set_option synthInstance.maxSize 1000
namespace NBK.FftObj
open NBK

/-- The number in a row of a column. -/
def entry (data : List Binned.Col) (s : String) (r : Nat) : ℚ := toQ ((((data.find? fun c => c.name == s).map fun c => c.vals).getD []).getD r .nan)

theorem sum_split {α : Type} (l : List α) (p p1 p2 : α → Prop) [DecidablePred p] [DecidablePred p1] [DecidablePred p2] (h : ∀ x, p x ↔ p1 x ∨ p2 x) (hd : ∀ x, p1 x → ¬ p2 x) (f : α → ℚ) :
    ((l.filter fun x => decide (p x)).map f).sum = ((l.filter fun x => decide (p1 x)).map f).sum + ((l.filter fun x => decide (p2 x)).map f).sum := by
  induction l with
  | nil => simp
  | cons x l ih =>
    by_cases h1 : p1 x
    · have h2 := hd x h1
      have hp : p x := (h x).mpr (.inl h1)
      simp only [List.filter_cons, h1, h2, hp, decide_true, decide_false, if_true, List.map_cons, List.sum_cons, ih]
      simp [add_assoc]
    · by_cases h2 : p2 x
      · have hp : p x := (h x).mpr (.inr h2)
        simp only [List.filter_cons, h1, h2, hp, decide_true, decide_false, if_true, List.map_cons, List.sum_cons, ih]
        simp; ring
      · have hp : ¬ p x := fun hp => ((h x).mp hp).elim h1 h2
        simp only [List.filter_cons, h1, h2, hp, decide_false, Bool.false_eq_true, if_false]
        exact ih

open Classical in
/-- The sum over a wide bin is that of the sums over its parts. -/
theorem wide_sum (l : List Project.Mode) (Q : Project.Mode → Prop) (lo d : ℚ) (hd : 0 < d) (f : Project.Mode → ℚ) (c : Nat) :
    ((l.filter fun m => decide (lo ≤ m.x ∧ m.x < lo + c * d ∧ Q m)).map f).sum =
      ((List.range c).map fun t : Nat => ((l.filter fun m => decide (lo + (t : ℚ) * d ≤ m.x ∧ m.x < lo + ((t : ℚ) + 1) * d ∧ Q m)).map f).sum).sum := by
  induction c with
  | zero =>
    have : (l.filter fun m => decide (lo ≤ m.x ∧ m.x < lo + (0 : Nat) * d ∧ Q m)) = [] := by
      rw [List.filter_eq_nil_iff]
      intro m _
      rw [decide_eq_true_eq]
      rintro ⟨h1, h2, _⟩
      push_cast at h2
      linarith
    rw [this]; rfl
  | succ c ih =>
    rw [List.range_succ, List.map_append, List.sum_append, ← ih, List.map_singleton, List.sum_singleton]
    apply sum_split l (fun m => lo ≤ m.x ∧ m.x < lo + (c + 1 : Nat) * d ∧ Q m) (fun m => lo ≤ m.x ∧ m.x < lo + c * d ∧ Q m)
      (fun m => lo + c * d ≤ m.x ∧ m.x < lo + (c + 1) * d ∧ Q m)
    · intro m
      have hc : (0 : ℚ) ≤ c * d := by positivity
      push_cast
      constructor
      · rintro ⟨h1, h2, h3⟩
        rcases lt_or_ge m.x (lo + c * d) with h | h
        · exact .inl ⟨h1, h, h3⟩
        · exact .inr ⟨h, h2, h3⟩
      · rintro (⟨h1, h2, h3⟩ | ⟨h1, h2, h3⟩)
        · exact ⟨h1, by linarith, h3⟩
        · exact ⟨by linarith, h2, h3⟩
    · rintro m ⟨_, h2, _⟩ ⟨h3, _, _⟩
      linarith

/-- The mean times the number of modes is the sum. -/
theorem mean_total (l : List Project.Mode) (hw : ∀ m ∈ l, 0 < m.w) (f : Project.Mode → ℚ) :
    toQ (val (Project.mean f l)) * (l.map fun m => (m.w : ℚ)).sum = (l.map f).sum := by
  unfold Project.mean
  split_ifs with h
  · have hl : l = [] := by
      cases l with
      | nil => rfl
      | cons m l =>
        exfalso
        rw [List.map_cons, List.sum_cons] at h
        have h1 : (0 : ℚ) < m.w := by exact_mod_cast hw m (by simp)
        have h2 : (0 : ℚ) ≤ (l.map fun m => (m.w : ℚ)).sum := by
          apply List.sum_nonneg
          intro x hx
          obtain ⟨m', _, rfl⟩ := List.mem_map.mp hx
          positivity
        linarith
    subst hl
    simp [val, toQ]
  · unfold val toQ
    field_simp

open Classical in
/-- The entries of the table, for one dimension or two. -/
theorem entries (modes : List (List (List Project.Mode))) (hg : GoodModes modes) (a b d : ℚ) (hd : 0 < d) (ha : 0 ≤ a) (n Nmu : Nat)
    (hn : (arange a b d).length = n + 1) (hN : 0 < Nmu) (oneD : Bool) (poles : List Nat) (i j : Nat) (hi : i < n) (hj : j < Nmu) :
    let l := (Project.modes modes).filter fun m => decide (a + i * d ≤ m.x ∧ m.x < a + (i + 1) * d ∧ Project.InMuBin (muEdges .power Nmu) j m.mu)
    let t := statData .power oneD (arange a b d) (muEdges .power Nmu) modes poles
    entry t "k" (i * Nmu + j) = toQ (val (Project.mean (fun m => m.x * m.w) l)) ∧
    (oneD = false → entry t "mu" (i * Nmu + j) = toQ (val (Project.mean (fun m => m.mu * m.w) l))) ∧
    entry t "power.real" (i * Nmu + j) = toQ (val (Project.mean (fun m => if m.nonsingular then 2 * m.y.re else m.y.re) l)) ∧
    entry t "power.imag" (i * Nmu + j) = toQ (val (Project.mean (fun m => if m.nonsingular then 0 else m.y.im) l)) ∧
    entry t "modes" (i * Nmu + j) = (l.map fun m => (m.w : ℚ)).sum := by
  intro l t
  obtain ⟨ck, cmu, cre, cim, cN, h0, h1, h2, h3, h4, h5⟩ := power_rows modes hg a b d hd ha n Nmu hn hN poles i j hi hj
  have ht : t = if oneD then [⟨"k", false, ck⟩, ⟨"power.real", false, cre⟩, ⟨"power.imag", false, cim⟩, ⟨"modes", true, cN⟩] else
      [⟨"k", false, ck⟩, ⟨"mu", false, cmu⟩, ⟨"power.real", false, cre⟩, ⟨"power.imag", false, cim⟩, ⟨"modes", true, cN⟩] := by
    cases oneD
    · exact h0
    · show statData .power true _ _ modes poles = _
      unfold statData statCols at h0 ⊢
      dsimp only [Kind.dim, Kind.stat] at h0 ⊢
      simp only [List.cons_append, List.nil_append, List.append_assoc, if_true, Bool.false_eq_true, if_false, List.cons.injEq] at h0 ⊢
      exact ⟨h0.1, h0.2.2.1, h0.2.2.2.1, h0.2.2.2.2.1, trivial⟩
  have f1 : ∀ s, ck.getD (i * Nmu + j) s = val (Project.mean (fun m => m.x * m.w) l) := by intro s; rw [List.getD_eq_getElem?_getD, h1]; rfl
  have f2 : ∀ s, cmu.getD (i * Nmu + j) s = val (Project.mean (fun m => m.mu * m.w) l) := by intro s; rw [List.getD_eq_getElem?_getD, h2]; rfl
  have f3 : ∀ s, cre.getD (i * Nmu + j) s = val (Project.mean (fun m => if m.nonsingular then 2 * m.y.re else m.y.re) l) := by
    intro s; rw [List.getD_eq_getElem?_getD, h3]; rfl
  have f4 : ∀ s, cim.getD (i * Nmu + j) s = val (Project.mean (fun m => if m.nonsingular then 0 else m.y.im) l) := by
    intro s; rw [List.getD_eq_getElem?_getD, h4]; rfl
  have f5 : ∀ s, cN.getD (i * Nmu + j) s = .fin (l.map fun m => (m.w : ℚ)).sum := by intro s; rw [List.getD_eq_getElem?_getD, h5]; rfl
  rw [ht]
  unfold entry
  cases oneD
  · refine ⟨?_, fun _ => ?_, ?_, ?_, ?_⟩
    · exact congrArg toQ (f1 _)
    · exact congrArg toQ (f2 _)
    · exact congrArg toQ (f3 _)
    · exact congrArg toQ (f4 _)
    · exact congrArg toQ (f5 _)
  · refine ⟨?_, fun h => by simp at h, ?_, ?_, ?_⟩
    · exact congrArg toQ (f1 _)
    · exact congrArg toQ (f3 _)
    · exact congrArg toQ (f4 _)
    · exact congrArg toQ (f5 _)

/-- The table of bins `c` times as wide. -/
theorem statData_wide (modes : List (List (List Project.Mode))) (hg : GoodModes modes) (hw : ∀ m ∈ Project.modes modes, 0 < m.w) (a b d : ℚ) (hd : 0 < d)
    (ha : 0 ≤ a) (c : Nat) (hc : 0 < c) (Nmu : Nat) (hN : 0 < Nmu) (oneD : Bool) (poles : List Nat) (i j : Nat)
    (hi : i + 1 < (arange a b (c * d)).length) (hj : j < Nmu) :
    let t := statData .power oneD (arange a b d) (muEdges .power Nmu) modes poles
    let t' := statData .power oneD (arange a b (c * d)) (muEdges .power Nmu) modes poles
    entry t' "modes" (i * Nmu + j) = ((List.range c).map fun s => entry t "modes" ((c * i + s) * Nmu + j)).sum ∧
    ∀ col ∈ (if oneD then ["k", "power.real", "power.imag"] else ["k", "mu", "power.real", "power.imag"]),
      entry t' col (i * Nmu + j) * entry t' "modes" (i * Nmu + j) =
        ((List.range c).map fun s => entry t col ((c * i + s) * Nmu + j) * entry t "modes" ((c * i + s) * Nmu + j)).sum := by
  classical
  intro t t'
  have hc' : (0 : ℚ) < c := by exact_mod_cast hc
  have hcd : 0 < (c : ℚ) * d := by positivity
  obtain ⟨n', hn'⟩ : ∃ n, (arange a b (c * d)).length = n + 1 := ⟨(arange a b (c * d)).length - 1, by omega⟩
  have hlast := (arange_length a b (c * d) hcd (i + 1)).mp hi
  have hfine : ∀ s, s < c → c * i + s + 1 < (arange a b d).length := by
    intro s hs
    apply (arange_length a b d hd _).mpr
    have : ((s : ℚ) + 1) ≤ c := by exact_mod_cast hs
    push_cast at hlast ⊢
    nlinarith
  have hlen : 0 < (arange a b d).length := by have := hfine 0 hc; omega
  obtain ⟨n, hn⟩ : ∃ n, (arange a b d).length = n + 1 := ⟨(arange a b d).length - 1, by omega⟩
  have split : ∀ f : Project.Mode → ℚ,
      (((Project.modes modes).filter fun m => decide (a + i * (c * d) ≤ m.x ∧ m.x < a + (i + 1) * (c * d) ∧ Project.InMuBin (muEdges .power Nmu) j m.mu)).map f).sum =
      ((List.range c).map fun s => (((Project.modes modes).filter fun m => decide (a + ((c * i + s : Nat) : ℚ) * d ≤ m.x ∧
        m.x < a + (((c * i + s : Nat) : ℚ) + 1) * d ∧ Project.InMuBin (muEdges .power Nmu) j m.mu)).map f).sum).sum := by
    intro f
    have h := wide_sum (Project.modes modes) (fun m => Project.InMuBin (muEdges .power Nmu) j m.mu) (a + i * (c * d)) d hd f c
    rw [show a + i * (c * d) + c * d = a + (i + 1) * (c * d) by ring] at h
    rw [h]
    congr 1
    apply List.map_congr_left
    intro s _
    rw [show a + i * (c * d) + s * d = a + ((c * i + s : Nat) : ℚ) * d by push_cast; ring,
      show a + i * (c * d) + (s + 1) * d = a + (((c * i + s : Nat) : ℚ) + 1) * d by push_cast; ring]
  have hW : ∀ p : Project.Mode → Bool, ∀ m ∈ (Project.modes modes).filter p, 0 < m.w := fun p m hm => hw m (List.mem_filter.mp hm).1
  obtain ⟨k1, k2, k3, k4, k5⟩ := entries modes hg a b (c * d) hcd ha n' Nmu hn' hN oneD poles i j (by omega) hj
  have fine := fun s (hs : s < c) => entries modes hg a b d hd ha n Nmu hn hN oneD poles (c * i + s) j (by have := hfine s hs; omega) hj
  have modesEq : entry t' "modes" (i * Nmu + j) = ((List.range c).map fun s => entry t "modes" ((c * i + s) * Nmu + j)).sum := by
    refine k5.trans ((split _).trans ?_)
    congr 1
    apply List.map_congr_left
    intro s hs
    exact (fine s (List.mem_range.mp hs)).2.2.2.2.symm
  have colEq : ∀ (col : String) (f : Project.Mode → ℚ),
      entry t' col (i * Nmu + j) = toQ (val (Project.mean f ((Project.modes modes).filter fun m => decide (a + i * (c * d) ≤ m.x ∧ m.x < a + (i + 1) * (c * d) ∧
        Project.InMuBin (muEdges .power Nmu) j m.mu)))) →
      (∀ s, s < c → entry t col ((c * i + s) * Nmu + j) = toQ (val (Project.mean f ((Project.modes modes).filter fun m =>
        decide (a + ((c * i + s : Nat) : ℚ) * d ≤ m.x ∧ m.x < a + (((c * i + s : Nat) : ℚ) + 1) * d ∧ Project.InMuBin (muEdges .power Nmu) j m.mu))))) →
      entry t' col (i * Nmu + j) * entry t' "modes" (i * Nmu + j) =
        ((List.range c).map fun s => entry t col ((c * i + s) * Nmu + j) * entry t "modes" ((c * i + s) * Nmu + j)).sum := by
    intro col f h1 h2
    rw [h1, show entry t' "modes" (i * Nmu + j) = _ from k5, mean_total _ (hW _) f, split f]
    congr 1
    apply List.map_congr_left
    intro s hs
    have hs' := List.mem_range.mp hs
    rw [h2 s hs', show entry t "modes" ((c * i + s) * Nmu + j) = _ from (fine s hs').2.2.2.2, mean_total _ (hW _) f]
  refine ⟨modesEq, ?_⟩
  intro col hcol
  cases oneD
  · simp only [Bool.false_eq_true, if_false, List.mem_cons, List.not_mem_nil, or_false] at hcol
    rcases hcol with rfl | rfl | rfl | rfl
    · exact colEq _ _ k1 fun s hs => (fine s hs).1
    · exact colEq _ _ (k2 rfl) fun s hs => (fine s hs).2.1 rfl
    · exact colEq _ _ k3 fun s hs => (fine s hs).2.2.1
    · exact colEq _ _ k4 fun s hs => (fine s hs).2.2.2.1
  · simp only [if_true, List.mem_cons, List.not_mem_nil, or_false] at hcol
    rcases hcol with rfl | rfl | rfl
    · exact colEq _ _ k1 fun s hs => (fine s hs).1
    · exact colEq _ _ k3 fun s hs => (fine s hs).2.2.1
    · exact colEq _ _ k4 fun s hs => (fine s hs).2.2.2.1

/-- C107: two calls that differ only in `dk`, the second with bins `c` times as wide: in every row of the second, the number of modes is the sum of those of the
`c` rows of the first that fill the bin, and k, mu and the power are their means weighted by the number of modes. -/
theorem wide_bins (e : Env) (first : Src) (second : Option Src) (g : Args) (d b : ℚ) (hd : 0 < d) (ha : 0 ≤ g.xmin) (hb : g.xmax = some b) (c : Nat) (hc : 0 < c)
    (hN : 0 < g.Nmu) (hg : ∀ m1 m2, castBoth g.box g.nmesh first second = .ok (m1, m2) → GoodModes (e.stat3d .power m1.nmesh m1.src m2.src) ∧
      ∀ m ∈ Project.modes (e.stat3d .power m1.nmesh m1.src m2.src), 0 < m.w) (o o' : Obj)
    (h : new e .power first second { g with dx := some d } = .ok o) (h' : new e .power first second { g with dx := some (c * d) } = .ok o')
    (Nmu : Nat) (hNmu : Nmu = if g.mode = "1d" then 1 else g.Nmu) (i j : Nat) (hi : i + 1 < (o'.stat.edges.headD []).length) (hj : j < Nmu) :
    entry o'.stat.data "modes" (i * Nmu + j) = ((List.range c).map fun s => entry o.stat.data "modes" ((c * i + s) * Nmu + j)).sum ∧
    ∀ col ∈ (if g.mode = "1d" then ["k", "power.real", "power.imag"] else ["k", "mu", "power.real", "power.imag"]),
      entry o'.stat.data col (i * Nmu + j) * entry o'.stat.data "modes" (i * Nmu + j) =
        ((List.range c).map fun s => entry o.stat.data col ((c * i + s) * Nmu + j) * entry o.stat.data "modes" ((c * i + s) * Nmu + j)).sum := by
  obtain ⟨hm, los, l1, l2, l3, m1, m2, hcb, hr⟩ := (new_eq e .power first second _ o).mp h
  obtain ⟨hm', los', l1', l2', l3', m1', m2', hcb', hr'⟩ := (new_eq e .power first second _ o').mp h'
  have e1 : los' = los := Option.some.inj (l1'.symm.trans l1)
  have e2 : (Except.ok (m1', m2') : Except Err (Mesh × Mesh)) = .ok (m1, m2) := hcb'.symm.trans hcb
  cases e1; cases e2
  obtain ⟨hgood, hw⟩ := hg m1 m2 hcb
  obtain ⟨ed, cs, hbn, hne, hnd, hpos, rfl⟩ := run_ok e .power _ m1 m2 hm o hr
  obtain ⟨ed', cs', hbn', hne', hnd', hpos', rfl⟩ := run_ok e .power _ m1 m2 hm' o' hr'
  have hcd : 0 < (c : ℚ) * d := by have : (0 : ℚ) < c := by exact_mod_cast hc
                                   positivity
  have x1 : ed = arange g.xmin b d := by
    rw [xBins_pos e .power _ _ (by unfold inAttrs; exact hd)] at hbn
    unfold inAttrs at hbn
    dsimp only at hbn
    rw [hb] at hbn
    exact (Prod.mk.inj (Except.ok.inj hbn)).1.symm
  have x2 : ed' = arange g.xmin b (c * d) := by
    rw [xBins_pos e .power _ _ (by unfold inAttrs; exact hcd)] at hbn'
    unfold inAttrs at hbn'
    dsimp only at hbn'
    rw [hb] at hbn'
    exact (Prod.mk.inj (Except.ok.inj hbn')).1.symm
  subst x1; subst x2
  have hu : 0 < Nmu := by rw [hNmu]; split_ifs <;> omega
  have hi' : i + 1 < (arange g.xmin b (c * d)).length := by
    unfold outStat at hi
    dsimp only at hi
    split_ifs at hi <;> exact hi
  have hs := statData_wide _ hgood hw g.xmin b d hd ha c hc Nmu hu (decide (g.mode = "1d")) ((g.poles.getD []).map Int.toNat) i j hi' hj
  subst hNmu
  unfold outStat inAttrs usedNmu
  dsimp only
  split_ifs with hmode
  · simp only [hmode, if_true, decide_true] at hs ⊢; exact hs
  · simp only [hmode, if_false, decide_false, Bool.false_eq_true] at hs ⊢; exact hs

/-- The arguments of the case with a width of the bins. -/
def ofWidth (d : ℚ) : Args := { mode := "1d", dx := some d, xmax := some 5 }

/-- C107: the hypotheses of `wide_bins` hold: bins of width 1, and bins of width 2, where two modes share the first and the third is in the second. -/
theorem wide_case :
    ((new env .power cat none (ofWidth 1)).toOption.map fun o => numbers o.stat) =
      some [("k", [0, 1, 2, 0]), ("power.real", [0, 4, 6, 0]), ("power.imag", [0, 0, 0, 0]), ("modes", [1, 1, 2, 0])] ∧
    ((new env .power cat none (ofWidth (2 * 1))).toOption.map fun o => numbers o.stat) =
      some [("k", [1 / 2, 2]), ("power.real", [2, 6]), ("power.imag", [0, 0]), ("modes", [2, 2])] ∧
    ∀ m ∈ Project.modes (env.stat3d .power [8, 8, 8] 0 0), 0 < m.w := by
  refine ⟨by decide +kernel, by decide +kernel, by decide +kernel⟩

end NBK.FftObj
