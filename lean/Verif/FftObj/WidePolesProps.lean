import Verif.FftObj.WideProps

/-!
# Properties of `FFTPower` (C107): multipoles in bins `c` times as wide
-/
set_option linter.unusedSimpArgs false
set_option synthInstance.maxSize 1000
namespace NBK.FftObj
open NBK

/-- The number in a row of a column. -/
def cell (c : Binned.Col) (r : Nat) : ℚ := toQ (c.vals.getD r .nan)

theorem cell_range (s : String) (t : Bool) (m : Nat) (u : Nat → Binned.Val) (i : Nat) (hi : i < m) : cell ⟨s, t, (List.range m).map u⟩ i = toQ (u i) := by
  unfold cell
  rw [List.getD_eq_getElem?_getD, List.getElem?_map, List.getElem?_range hi]
  rfl

/-- Every column of the second table times its number of modes is the sum of the first over the narrow bins. -/
def Widened (c n' : Nat) (N N' : Binned.Col) (x x' : Binned.Col) : Prop := x.name = x'.name ∧ ∀ i, i < n' →
  cell x' i * cell N' i = ((List.range c).map fun s => cell x (c * i + s) * cell N (c * i + s)).sum

open Classical in
/-- The sums over mu of a wide bin, and ratios of them. -/
theorem sums_wide (modes : List (List (List Project.Mode))) (hg : GoodModes modes) (hw : ∀ m ∈ Project.modes modes, 0 < m.w) (a b d : ℚ) (hd : 0 < d)
    (ha : 0 ≤ a) (c : Nat) (hc : 0 < c) (Nmu : Nat) (hN : 0 < Nmu) (i : Nat) (hi : i + 1 < (arange a b (c * d)).length) (f : Project.Mode → ℚ) :
    let S := fun (g : Project.Mode → ℚ) (i : Nat) => Project.sumMu (muEdges .power Nmu) (Project.binSum ((arange a b d).map (· ^ 2)) (muEdges .power Nmu) g modes) i
    let S' := fun (g : Project.Mode → ℚ) (i : Nat) => Project.sumMu (muEdges .power Nmu) (Project.binSum ((arange a b (c * d)).map (· ^ 2)) (muEdges .power Nmu) g modes) i
    (∀ s, s < c → c * i + s + 1 < (arange a b d).length) ∧ S' f i = ((List.range c).map fun s => S f (c * i + s)).sum ∧
    toQ (val (Project.ratio (S' f i) (S' (fun m => m.w) i))) * S' (fun m => m.w) i =
      ((List.range c).map fun s => toQ (val (Project.ratio (S f (c * i + s)) (S (fun m => m.w) (c * i + s)))) * S (fun m => m.w) (c * i + s)).sum := by
  intro S S'
  have hc' : (0 : ℚ) < c := by exact_mod_cast hc
  have hcd : 0 < (c : ℚ) * d := by positivity
  obtain ⟨n', hn'⟩ : ∃ n, (arange a b (c * d)).length = n + 1 := ⟨(arange a b (c * d)).length - 1, by omega⟩
  have hlast := (arange_length a b (c * d) hcd (i + 1)).mp hi
  have hfine : ∀ s, s < c → c * i + s + 1 < (arange a b d).length := by
    intro s hs
    apply (arange_length a b d hd _).mpr
    have : ((s : ℚ) + 1) ≤ c := by exact_mod_cast hs
    push_cast at hlast ⊢
    nlinarith
  have hlen : 0 < (arange a b d).length := by have := hfine 0 hc; omega
  obtain ⟨n, hn⟩ : ∃ n, (arange a b d).length = n + 1 := ⟨(arange a b d).length - 1, by omega⟩
  have e' : ∀ g : Project.Mode → ℚ, S' g i = (((Project.modes modes).filter fun m => decide (a + i * (c * d) ≤ m.x ∧ m.x < a + (i + 1) * (c * d))).map g).sum :=
    fun g => mu_sum modes hg a b (c * d) hcd ha n' Nmu hn' hN g i (by omega)
  have e : ∀ (g : Project.Mode → ℚ) (s : Nat), s < c → S g (c * i + s) = (((Project.modes modes).filter fun m => decide (a + ((c * i + s : Nat) : ℚ) * d ≤ m.x ∧
      m.x < a + (((c * i + s : Nat) : ℚ) + 1) * d)).map g).sum :=
    fun g s hs => mu_sum modes hg a b d hd ha n Nmu hn hN g (c * i + s) (by have := hfine s hs; omega)
  have hsum : ∀ g : Project.Mode → ℚ, S' g i = ((List.range c).map fun s => S g (c * i + s)).sum := by
    intro g
    have h := wide_sum (Project.modes modes) (fun _ => True) (a + i * (c * d)) d hd g c
    rw [show a + i * (c * d) + c * d = a + (i + 1) * (c * d) by ring] at h
    simp only [and_true] at h
    rw [e' g]
    refine Eq.trans (Eq.trans ?_ h) ?_
    · congr 2
    · congr 1
      apply List.map_congr_left
      intro s hs
      rw [e g s (List.mem_range.mp hs), show a + i * (c * d) + s * d = a + ((c * i + s : Nat) : ℚ) * d by push_cast; ring,
        show a + i * (c * d) + (s + 1) * d = a + (((c * i + s : Nat) : ℚ) + 1) * d by push_cast; ring]
  have tot : ∀ p : Project.Mode → Bool, toQ (val (Project.ratio ((((Project.modes modes).filter p).map f).sum) ((((Project.modes modes).filter p).map fun m => (m.w : ℚ)).sum))) *
      (((Project.modes modes).filter p).map fun m => (m.w : ℚ)).sum = (((Project.modes modes).filter p).map f).sum :=
    fun p => mean_total _ (fun m hm => hw m (List.mem_filter.mp hm).1) f
  refine ⟨hfine, hsum f, ?_⟩
  rw [e' f, e' (fun m => (m.w : ℚ)), tot, ← e' f, hsum f]
  congr 1
  apply List.map_congr_left
  intro s hs
  rw [e f s (List.mem_range.mp hs), e (fun m => (m.w : ℚ)) s (List.mem_range.mp hs), tot]

/-- The multipoles in bins `c` times as wide. -/
theorem poleData_wide (modes : List (List (List Project.Mode))) (hg : GoodModes modes) (hw : ∀ m ∈ Project.modes modes, 0 < m.w) (a b d : ℚ) (hd : 0 < d)
    (ha : 0 ≤ a) (c : Nat) (hc : 0 < c) (Nmu : Nat) (hN : 0 < Nmu) (poles : List Nat) :
    ∃ (cs cs' : List Binned.Col) (N N' : Binned.Col), poleData .power (arange a b d) (muEdges .power Nmu) modes poles = cs ++ [N] ∧
      poleData .power (arange a b (c * d)) (muEdges .power Nmu) modes poles = cs' ++ [N'] ∧ N.name = "modes" ∧ N'.name = "modes" ∧
      (∀ i, i < (arange a b (c * d)).length - 1 → cell N' i = ((List.range c).map fun s => cell N (c * i + s)).sum) ∧
      List.Forall₂ (Widened c ((arange a b (c * d)).length - 1) N N') cs cs' := by
  have mid : ∀ (R : Binned.Col → Binned.Col → Prop) (l : List Nat) (f g : Nat → Nat → List Binned.Col), (∀ p x, l[p]? = some x → List.Forall₂ R (f p x) (g p x)) →
      List.Forall₂ R (l.mapIdx f).flatten (l.mapIdx g).flatten := by
    intro R l
    induction l with
    | nil => intro f g _; exact List.Forall₂.nil
    | cons x l ih =>
      intro f g h
      rw [List.mapIdx_cons, List.mapIdx_cons, List.flatten_cons, List.flatten_cons]
      exact List.rel_append (h 0 x rfl) (ih _ _ fun p y hp => h (p + 1) y (by simpa using hp))
  unfold poleData
  dsimp only
  simp only [List.map_map]
  refine ⟨_, _, _, _, rfl, rfl, rfl, rfl, ?_, ?_⟩
  · intro i hi
    have h := sums_wide modes hg hw a b d hd ha c hc Nmu hN i (by omega) fun m => m.w
    rw [cell_range _ _ _ _ _ hi]
    refine Eq.trans h.2.1 ?_
    congr 1
    apply List.map_congr_left
    intro s hs
    rw [cell_range _ _ _ _ _ (by have := h.1 s (List.mem_range.mp hs); omega)]
    rfl
  · have key : ∀ (x : String) (t : Bool) (f : Project.Mode → ℚ) (u : Option ℚ × List (Option ℚ × Option ℚ) × ℚ → Option ℚ),
        (∀ (ed : List ℚ) (i : Nat), u (Project.result1d true ed (muEdges .power Nmu) modes poles i) =
          Project.ratio (Project.sumMu (muEdges .power Nmu) (Project.binSum ed (muEdges .power Nmu) f modes) i)
            (Project.sumMu (muEdges .power Nmu) (Project.binSum ed (muEdges .power Nmu) (fun m => m.w) modes) i)) →
        Widened c ((arange a b (c * d)).length - 1)
          ⟨"modes", true, (List.range ((arange a b d).length - 1)).map fun i => .fin (Project.result1d true ((arange a b d).map (· ^ 2)) (muEdges .power Nmu) modes poles i).2.2⟩
          ⟨"modes", true, (List.range ((arange a b (c * d)).length - 1)).map fun i =>
            .fin (Project.result1d true ((arange a b (c * d)).map (· ^ 2)) (muEdges .power Nmu) modes poles i).2.2⟩
          ⟨x, t, (List.range ((arange a b d).length - 1)).map fun i => val (u (Project.result1d true ((arange a b d).map (· ^ 2)) (muEdges .power Nmu) modes poles i))⟩
          ⟨x, t, (List.range ((arange a b (c * d)).length - 1)).map fun i =>
            val (u (Project.result1d true ((arange a b (c * d)).map (· ^ 2)) (muEdges .power Nmu) modes poles i))⟩ := by
      intro x t f u hu
      refine ⟨rfl, fun i hi => ?_⟩
      have h := sums_wide modes hg hw a b d hd ha c hc Nmu hN i (by omega) f
      rw [cell_range _ _ _ _ _ hi, cell_range _ _ _ _ _ hi, hu]
      refine Eq.trans h.2.2 ?_
      congr 1
      apply List.map_congr_left
      intro s hs
      have := h.1 s (List.mem_range.mp hs)
      rw [cell_range _ _ _ _ _ (by omega), cell_range _ _ _ _ _ (by omega), hu]
      rfl
    apply List.rel_append
    · exact List.Forall₂.cons (key "k" false (fun m => m.x * m.w) (fun r => r.1) fun _ _ => rfl) List.Forall₂.nil
    · apply mid
      intro p x hp
      unfold statCols
      dsimp only
      simp only [List.map_map]
      refine List.Forall₂.cons (key _ false (fun m => (Project.poleTerm true x m).re) (fun r => (r.2.1.getD p (none, none)).1) fun ed i => ?_)
        (List.Forall₂.cons (key _ false (fun m => (Project.poleTerm true x m).im) (fun r => (r.2.1.getD p (none, none)).2) fun ed i => ?_) List.Forall₂.nil)
      · rw [pole_entry _ _ _ _ _ _ _ _ hp]; rfl
      · rw [pole_entry _ _ _ _ _ _ _ _ hp]; rfl

/-- C107: two calls that differ only in `dk`, the second with bins `c` times as wide: in every row of the multipoles of the second, the number of modes is the sum
of those of the `c` rows of the first that fill the bin, and k and all multipoles are their means weighted by the number of modes. -/
theorem wide_poles (e : Env) (first : Src) (second : Option Src) (g : Args) (d b : ℚ) (hd : 0 < d) (ha : 0 ≤ g.xmin) (hb : g.xmax = some b) (c : Nat) (hc : 0 < c)
    (hN : 0 < g.Nmu) (hg : ∀ m1 m2, castBoth g.box g.nmesh first second = .ok (m1, m2) → GoodModes (e.stat3d .power m1.nmesh m1.src m2.src) ∧
      ∀ m ∈ Project.modes (e.stat3d .power m1.nmesh m1.src m2.src), 0 < m.w) (o o' : Obj)
    (h : new e .power first second { g with dx := some d } = .ok o) (h' : new e .power first second { g with dx := some (c * d) } = .ok o')
    (p p' : Binned.BS Attrs) (hp : o.poles = some (some p)) (hp' : o'.poles = some (some p')) :
    ∃ (cs cs' : List Binned.Col) (N N' : Binned.Col), p.data = cs ++ [N] ∧ p'.data = cs' ++ [N'] ∧ N.name = "modes" ∧ N'.name = "modes" ∧
      (∀ i, i < (p'.edges.headD []).length - 1 → cell N' i = ((List.range c).map fun s => cell N (c * i + s)).sum) ∧
      List.Forall₂ (Widened c ((p'.edges.headD []).length - 1) N N') cs cs' := by
  obtain ⟨hm, los, l1, l2, l3, m1, m2, hcb, hr⟩ := (new_eq e .power first second _ o).mp h
  obtain ⟨hm', los', l1', l2', l3', m1', m2', hcb', hr'⟩ := (new_eq e .power first second _ o').mp h'
  have e1 : los' = los := Option.some.inj (l1'.symm.trans l1)
  have e2 : (Except.ok (m1', m2') : Except Err (Mesh × Mesh)) = .ok (m1, m2) := hcb'.symm.trans hcb
  cases e1; cases e2
  obtain ⟨hgood, hw⟩ := hg m1 m2 hcb
  obtain ⟨ed, cs, hbn, hne, hnd, hpos, rfl⟩ := run_ok e .power _ m1 m2 hm o hr
  obtain ⟨ed', cs', hbn', hne', hnd', hpos', rfl⟩ := run_ok e .power _ m1 m2 hm' o' hr'
  have hcd : 0 < (c : ℚ) * d := by have : (0 : ℚ) < c := by exact_mod_cast hc
                                   positivity
  have x1 : ed = arange g.xmin b d := by
    rw [xBins_pos e .power _ _ (by unfold inAttrs; exact hd)] at hbn
    unfold inAttrs at hbn
    dsimp only at hbn
    rw [hb] at hbn
    exact (Prod.mk.inj (Except.ok.inj hbn)).1.symm
  have x2 : ed' = arange g.xmin b (c * d) := by
    rw [xBins_pos e .power _ _ (by unfold inAttrs; exact hcd)] at hbn'
    unfold inAttrs at hbn'
    dsimp only at hbn'
    rw [hb] at hbn'
    exact (Prod.mk.inj (Except.ok.inj hbn')).1.symm
  subst x1; subst x2
  have hu : 0 < (if g.mode = "1d" then 1 else g.Nmu) := by split_ifs <;> omega
  have f1 := Option.some.inj hp
  have f2 := Option.some.inj hp'
  unfold outPoles at f1 f2
  dsimp only at f1 f2
  split_ifs at f1
  split_ifs at f2
  have g1 := Option.some.inj f1
  have g2 := Option.some.inj f2
  subst g1; subst g2
  exact poleData_wide _ hgood hw g.xmin b d hd ha c hc _ hu ((g.poles.getD []).map Int.toNat)

/-- C107: the hypotheses of `wide_poles` hold: the quadrupole in bins of width 1, and of width 2. -/
theorem wide_poles_case :
    ((new env .power cat none { ofWidth 1 with poles := some [2] }).toOption.map fun o => o.poles.map fun p => p.map numbers) =
      some (some (some [("k", [0, 1, 2, 0]), ("power_2.real", [0, 20, -15 / 4, 0]), ("power_2.imag", [0, 0, 0, 0]), ("modes", [1, 1, 2, 0])])) ∧
    ((new env .power cat none { ofWidth (2 * 1) with poles := some [2] }).toOption.map fun o => o.poles.map fun p => p.map numbers) =
      some (some (some [("k", [1 / 2, 2]), ("power_2.real", [10, -15 / 4]), ("power_2.imag", [0, 0]), ("modes", [2, 2])])) := by
  refine ⟨by decide +kernel, by decide +kernel⟩

end NBK.FftObj
