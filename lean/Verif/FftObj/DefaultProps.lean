import Verif.FftObj.Props
import Verif.Uedges.Props

/-!
# Properties of the defaults, the errors and the multipoles of `FFTPower` and `FFTCorr`
-/
set_option linter.unusedSimpArgs false
namespace NBK.FftObj
open NBK

/-- C107: what is no source is a TypeError; a catalog for which a size is found neither in the keywords nor in its attributes is a ValueError, as is a
field or mesh with other sizes than asked for. -/
theorem cast_errors (arg : Nat) (box : Option (Dim ℚ)) (nm : Option (Dim Nat)) :
    castSource arg box nm .other = .error .typeError ∧
    (∀ s c b n, (box = none ∧ b = none) ∨ (nm = none ∧ n = none) → castSource arg box nm (.catalog s c b n) = .error .valueError) ∧
    ∀ m : Mesh, m.box.length = 3 → m.nmesh.length = 3 → (∃ d, box = some d ∧ m.box ≠ d.three) ∨ (∃ d, nm = some d ∧ m.nmesh ≠ d.three) →
      castSource arg box nm (.mesh m) = .error .valueError ∧
      castSource arg box nm (.field m.src m.comm m.box m.nmesh) = .error .valueError := by
  refine ⟨rfl, ?_, ?_⟩
  · intro s c b n h
    rcases h with ⟨rfl, rfl⟩ | ⟨rfl, rfl⟩
    · simp [castSource, wrapSrc, Except.bind]
    · simp only [castSource, wrapSrc, Option.map_none, Option.none_or]
      cases (box.map Dim.three).or b <;> rfl
  · intro m h3 h3' h
    have key : mismatch m.box box = true ∨ mismatch m.nmesh nm = true := by
      rcases h with ⟨d, hd, hne⟩ | ⟨d, hd, hne⟩
      · left
        by_contra hc
        exact hne ((mismatch_iff m.box h3 box).mp (by simpa using hc) d hd)
      · right
        by_contra hc
        exact hne ((mismatch_iff m.nmesh h3' nm).mp (by simpa using hc) d hd)
    rcases key with k | k
    · simp [castSource, wrapSrc, Except.bind, k]
    · simp [castSource, wrapSrc, Except.bind, k]

theorem foldl_min (l : List ℚ) (a : ℚ) : (l.foldl min a = a ∨ l.foldl min a ∈ l) ∧ l.foldl min a ≤ a ∧ ∀ x ∈ l, l.foldl min a ≤ x := by
  induction l generalizing a with
  | nil => simp
  | cons b l ih =>
    obtain ⟨h1, h2, h3⟩ := ih (min a b)
    refine ⟨?_, le_trans h2 (min_le_left _ _), ?_⟩
    · rw [List.foldl_cons]
      rcases h1 with h | h
      · rcases min_choice a b with hm | hm
        · left; rw [h, hm]
        · right; rw [h, hm]; exact List.mem_cons_self ..
      · right; exact List.mem_cons_of_mem _ h
    · intro x hx
      rcases List.mem_cons.mp hx with rfl | hx
      · exact le_trans h2 (min_le_right _ _)
      · exact h3 x hx

theorem foldl_max (l : List ℚ) (a : ℚ) : (l.foldl max a = a ∨ l.foldl max a ∈ l) ∧ a ≤ l.foldl max a ∧ ∀ x ∈ l, x ≤ l.foldl max a := by
  induction l generalizing a with
  | nil => simp
  | cons b l ih =>
    obtain ⟨h1, h2, h3⟩ := ih (max a b)
    refine ⟨?_, le_trans (le_max_left _ _) h2, ?_⟩
    · rw [List.foldl_cons]
      rcases h1 with h | h
      · rcases max_choice a b with hm | hm
        · left; rw [h, hm]
        · right; rw [h, hm]; exact List.mem_cons_self ..
      · right; exact List.mem_cons_of_mem _ h
    · intro x hx
      rcases List.mem_cons.mp hx with rfl | hx
      · exact le_trans (le_max_right _ _) h2
      · exact h3 x hx

theorem minOf_eq {l : List ℚ} {m : ℚ} (hm : m ∈ l) (h : ∀ x ∈ l, m ≤ x) : minOf l = m := by
  cases l with
  | nil => cases hm
  | cons a l =>
    obtain ⟨h1, h2, h3⟩ := foldl_min l a
    have : minOf (a :: l) = l.foldl min a := rfl
    rw [this]
    apply le_antisymm
    · rcases List.mem_cons.mp hm with rfl | hm
      · exact h2
      · exact h3 m hm
    · rcases h1 with h1 | h1
      · rw [h1]; exact h a (List.mem_cons_self ..)
      · exact h _ (List.mem_cons_of_mem _ h1)

theorem maxOf_eq {l : List ℚ} {m : ℚ} (hm : m ∈ l) (h : ∀ x ∈ l, x ≤ m) : maxOf l = m := by
  cases l with
  | nil => cases hm
  | cons a l =>
    obtain ⟨h1, h2, h3⟩ := foldl_max l a
    have : maxOf (a :: l) = l.foldl max a := rfl
    rw [this]
    apply le_antisymm
    · rcases h1 with h1 | h1
      · rw [h1]; exact h a (List.mem_cons_self ..)
      · exact h _ (List.mem_cons_of_mem _ h1)
    · rcases List.mem_cons.mp hm with rfl | hm
      · exact h2
      · exact h3 m hm

/-- C107: the defaults. With `Lmin` and `Lmax` the shortest and the longest side of the box, `Nmin` and `Nmax` the smallest and the largest number of
cells along a side: `dk = 2 pi / Lmin`, `kmax = pi Nmin / Lmax + dk / 2`, `dr = Lmin / Nmax`, `rmax = (Lmin + dr) / 2`. -/
theorem defaults (e : Env) (box : List ℚ) (nmesh : List Nat) (Lmin Lmax : ℚ) (Nmin Nmax : Nat) (h1 : Lmin ∈ box) (h2 : Lmax ∈ box)
    (h3 : ∀ L ∈ box, Lmin ≤ L ∧ L ≤ Lmax) (h4 : Nmin ∈ nmesh) (h5 : Nmax ∈ nmesh) (h6 : ∀ n ∈ nmesh, Nmin ≤ n ∧ n ≤ Nmax) (dx : ℚ) :
    dxDefault e .power box nmesh = 2 * e.pi / Lmin ∧ xmaxDefault e .power box nmesh dx = e.pi * Nmin / Lmax + dx / 2 ∧
    dxDefault e .corr box nmesh = Lmin / Nmax ∧ xmaxDefault e .corr box nmesh dx = (Lmin + dx) / 2 := by
  have e1 : minOf box = Lmin := minOf_eq h1 fun x hx => (h3 x hx).1
  have e2 : maxOf box = Lmax := maxOf_eq h2 fun x hx => (h3 x hx).2
  have e3 : minOf (nmesh.map fun n : Nat => (n : ℚ)) = Nmin := by
    refine minOf_eq (List.mem_map.mpr ⟨_, h4, rfl⟩) fun x hx => ?_
    obtain ⟨n, hn, rfl⟩ := List.mem_map.mp hx
    exact_mod_cast (h6 n hn).1
  have e4 : maxOf (nmesh.map fun n : Nat => (n : ℚ)) = Nmax := by
    refine maxOf_eq (List.mem_map.mpr ⟨_, h5, rfl⟩) fun x hx => ?_
    obtain ⟨n, hn, rfl⟩ := List.mem_map.mp hx
    exact_mod_cast (h6 n hn).2
  refine ⟨by simp [dxDefault, e1], by simp [xmaxDefault, e2, e3], by simp [dxDefault, e1, e4], ?_⟩
  simp only [xmaxDefault, e1]
  ring

-- a box of unequal sides
example (e : Env) : dxDefault e .power [3, 2, 4] [8, 16, 8] = 2 * e.pi / 2 ∧ xmaxDefault e .power [3, 2, 4] [8, 16, 8] 1 = e.pi * (8 : ℕ) / 4 + 1 / 2 ∧
    dxDefault e .corr [3, 2, 4] [8, 16, 8] = 2 / (16 : ℕ) ∧ xmaxDefault e .corr [3, 2, 4] [8, 16, 8] 1 = (2 + 1) / 2 :=
  defaults e _ _ 2 4 8 16 (by simp) (by simp) (by simp; norm_num) (by simp) (by simp) (by simp) 1

/-- C107: in a cubic box of `2M` or `2M + 1` cells along a side, the default bins of the correlation function are one cell wide, from 0 to `M` cells. -/
theorem cube_corr (e : Env) (L : ℚ) (hL : 0 < L) (N M : Nat) (hM : 0 < M) (hN : N = 2 * M ∨ N = 2 * M + 1) :
    arange 0 (xmaxDefault e .corr [L, L, L] [N, N, N] (dxDefault e .corr [L, L, L] [N, N, N])) (dxDefault e .corr [L, L, L] [N, N, N]) =
      (List.range (M + 1)).map fun i : Nat => i * (L / N) := by
  obtain ⟨-, -, d1, d2⟩ := defaults e [L, L, L] [N, N, N] L L N N (by simp) (by simp) (by simp) (by simp) (by simp) (by simp)
    (dxDefault e .corr [L, L, L] [N, N, N])
  have hN0 : (0 : ℚ) < N := by
    have : 0 < N := by omega
    exact_mod_cast this
  rw [d2, d1]
  unfold arange
  have hq : ((L + L / N) / 2 - 0) / (L / N) = ((N : ℚ) + 1) / 2 := by field_simp; ring
  have hc : ⌈((L + L / N) / 2 - 0) / (L / N)⌉.toNat = M + 1 := by
    rw [hq]
    have : ⌈((N : ℚ) + 1) / 2⌉ = (M : Int) + 1 := by
      rw [Int.ceil_eq_iff]
      push_cast
      rcases hN with h | h
      · have : (N : ℚ) = 2 * M := by exact_mod_cast h
        rw [this]
        constructor <;> linarith
      · have : (N : ℚ) = 2 * M + 1 := by exact_mod_cast h
        rw [this]
        constructor <;> linarith
    rw [this]
    omega
  rw [hc]
  simp

/-- The spacing of the modes or of the cells: `2 pi` over the longest side, or the least ratio of side and number of cells. -/
def Spacing (e : Env) (k : Kind) (box : List ℚ) (nmesh : List Nat) (x0 : ℚ) : Prop :=
  match k with
  | .power => ∃ L ∈ box, (∀ L' ∈ box, L' ≤ L) ∧ x0 = 2 * e.pi / L
  | .corr => ∃ (i : Nat) (L : ℚ) (n : Nat), box[i]? = some L ∧ nmesh[i]? = some n ∧ x0 = L / n ∧ ∀ (j : Nat) (L' : ℚ) (n' : Nat), box[j]? = some L' → nmesh[j]? = some n' → x0 ≤ L' / n'

theorem spacing_eq (e : Env) (k : Kind) (box : List ℚ) (nmesh : List Nat) (hpi : 0 < e.pi) (hpos : ∀ L ∈ box, 0 < L) (x0 : ℚ)
    (h : Spacing e k box nmesh x0) : fundamental e k box nmesh = x0 := by
  cases k with
  | power =>
    obtain ⟨L, hL, hmax, rfl⟩ := h
    refine minOf_eq (List.mem_map.mpr ⟨L, hL, rfl⟩) fun x hx => ?_
    obtain ⟨L', hL', rfl⟩ := List.mem_map.mp hx
    exact div_le_div_of_nonneg_left (by positivity) (hpos L' hL') (hmax L' hL')
  | corr =>
    obtain ⟨i, L, n, h1, h2, rfl, h3⟩ := h
    refine minOf_eq ?_ fun x hx => ?_
    · apply List.mem_of_getElem? (i := i)
      rw [List.getElem?_zipWith, h1, h2]
    · obtain ⟨j, hj⟩ := List.mem_iff_getElem?.mp hx
      rw [List.getElem?_zipWith] at hj
      cases hb : box[j]? with
      | none => simp [hb] at hj
      | some L' =>
        cases hn : nmesh[j]? with
        | none => simp [hb, hn] at hj
        | some n' =>
          simp only [hb, hn, Option.some.injEq] at hj
          rw [← hj]
          exact h3 j L' n' hb hn

/-- C107 (partial): with `dk = 0` there is one bin for each value of the wavenumber or separation below the upper bound, and the values are the
coordinates, in ascending order; between the values there must be at least the tolerance of the grouping, which is a multiple of the spacing. -/
theorem unique_bins_partial (e : Env) (k : Kind) (a : Attrs) (modes : List (List (List Project.Mode))) (hd : a.dx = 0) (hpi : 0 < e.pi)
    (hpos : ∀ L ∈ a.box, 0 < L) (x0 : ℚ) (h0 : 0 < x0) (hx0 : Spacing e k a.box a.nmesh x0) (xmax : ℚ)
    (hxm : xmax = a.xmax.getD (xmaxDefault e k a.box a.nmesh 0)) (hroot0 : ∀ q, 0 ≤ e.root q)
    (hsq : ∀ m ∈ Project.modes modes, ∀ m' ∈ Project.modes modes, m.x2 < m'.x2 → (x0 / 20) ^ 2 ≤ m'.x2 - m.x2)
    (hrt : ∀ m ∈ Project.modes modes, ∀ m' ∈ Project.modes modes, e.root m.x2 < e.root m'.x2 → x0 / 100000 ≤ e.root m'.x2 - e.root m.x2)
    (ed : List ℚ) (cs : Option (List ℚ)) (h : xBins e k a modes = .ok (ed, cs)) :
    ∃ c, cs = some c ∧ c.Pairwise (· < ·) ∧ (∀ f, f ∈ c ↔ f < xmax ∧ ∃ m ∈ Project.modes modes, e.root m.x2 = f) ∧
      ed.length = c.length + 1 ∧ ed.Pairwise (· < ·) ∧ ∀ i < c.length, ed.getD i 0 ≤ c.getD i 0 ∧ c.getD i 0 < ed.getD (i + 1) 0 := by
  unfold xBins at h
  simp only [hd, lt_irrefl, if_false, ← hxm, spacing_eq e k a.box a.nmesh hpi hpos x0 hx0] at h
  generalize hr : (modes.map fun slabs => slabs.flatten.map fun m => m.x2) = ranks at h
  have hmem : ∀ q, q ∈ ranks.flatten ↔ ∃ m ∈ Project.modes modes, m.x2 = q := by
    intro q
    rw [← hr]
    simp only [Project.modes, List.mem_flatten, List.mem_map]
    constructor
    · rintro ⟨l, ⟨s, hs, rfl⟩, hq⟩
      obtain ⟨m, hm, rfl⟩ := List.mem_map.mp hq
      obtain ⟨t, ht, hm⟩ := List.mem_flatten.mp hm
      exact ⟨m, ⟨t, ⟨s, hs, ht⟩, hm⟩, rfl⟩
    · rintro ⟨m, ⟨t, ⟨s, hs, ht⟩, hm⟩, rfl⟩
      exact ⟨_, ⟨s, hs, rfl⟩, List.mem_map.mpr ⟨m, List.mem_flatten.mpr ⟨t, ht, hm⟩, rfl⟩⟩
  obtain ⟨c1, c2⟩ := Uedges.centers_partial e.root x0 xmax h0 ranks
    (by
      intro x hx y hy hxy
      obtain ⟨m, hm, rfl⟩ := (hmem x).mp hx
      obtain ⟨m', hm', rfl⟩ := (hmem y).mp hy
      have := hsq m hm m' hm' hxy
      rw [mul_one_div]; exact this)
    (by
      intro x hx y hy hxy
      obtain ⟨m, hm, rfl⟩ := (hmem x).mp hx
      obtain ⟨m', hm', rfl⟩ := (hmem y).mp hy
      have := hrt m hm m' hm' hxy
      rw [mul_one_div]; exact this)
  unfold Uedges.findUniqueEdges at h
  dsimp only at h
  have hlen : 2 ≤ (Uedges.centers e.root x0 xmax ranks).length := by
    by_contra hlt
    have := (Uedges.few e.root x0 xmax ranks).mpr (by omega)
    unfold Uedges.findUniqueEdges at this
    dsimp only at this
    rw [this] at h
    cases h
  obtain ⟨e', g1, g2, g3, g4, g5⟩ := Uedges.edges_spec _ c1 (by
    intro f hf
    obtain ⟨-, q, -, rfl⟩ := (c2 f).mp hf
    exact hroot0 q) hlen
  rw [g1] at h
  simp only [Except.map, Except.ok.injEq, Prod.mk.injEq] at h
  obtain ⟨rfl, rfl⟩ := h
  refine ⟨_, rfl, c1, fun f => ?_, g2, g4, g5⟩
  rw [c2 f]
  constructor
  · rintro ⟨u, q, hq, rfl⟩
    obtain ⟨m, hm, rfl⟩ := (hmem q).mp hq
    exact ⟨u, m, hm, rfl⟩
  · rintro ⟨u, m, hm, rfl⟩
    exact ⟨u, _, (hmem _).mpr ⟨m, hm, rfl⟩, rfl⟩

open Classical in
/-- C107: the column of the multipole of degree `l` holds the mean over the modes of the bin of the statistic times `(2 l + 1)` times the Legendre
polynomial (with the conjugate modes), whatever the order in which the multipoles were asked for. -/
theorem pole_columns (modes : List (List (List Project.Mode))) (hg : GoodModes modes) (a b d : ℚ) (hd : 0 < d) (ha : 0 ≤ a) (n N : Nat)
    (hn : (arange a b d).length = n + 1) (hN : 0 < N) (poles : List Nat) (l : Nat) (hl : l ∈ poles) :
    ∃ cre cim, (⟨"power_" ++ toString l ++ ".real", false, cre⟩ : Binned.Col) ∈ poleData .power (arange a b d) (muEdges .power N) modes poles ∧
      (⟨"power_" ++ toString l ++ ".imag", false, cim⟩ : Binned.Col) ∈ poleData .power (arange a b d) (muEdges .power N) modes poles ∧
      ∀ i < n,
        let ms := (Project.modes modes).filter fun m => decide (a + i * d ≤ m.x ∧ m.x < a + (i + 1) * d)
        cre[i]? = some (val (Project.mean (fun m => (Project.poleTerm true l m).re) ms)) ∧
        cim[i]? = some (val (Project.mean (fun m => (Project.poleTerm true l m).im) ms)) := by
  obtain ⟨p, hp⟩ := List.mem_iff_getElem?.mp hl
  obtain ⟨hpl, hpe⟩ := List.getElem?_eq_some_iff.mp hp
  have hstat : ∀ c, c ∈ statCols .power ("power_" ++ toString l) (((List.range ((arange a b d).length - 1)).map fun i =>
      Project.result1d true ((arange a b d).map (· ^ 2)) (muEdges .power N) modes poles i).map fun r => r.2.1.getD p (none, none)) →
      c ∈ poleData .power (arange a b d) (muEdges .power N) modes poles := by
    intro c hc
    unfold poleData
    simp only [List.mem_append, List.mem_flatten, List.mem_mapIdx]
    left; right
    refine ⟨_, ⟨p, hpl, rfl⟩, ?_⟩
    rw [hpe]
    exact hc
  refine ⟨_, _, hstat _ (by unfold statCols; exact List.mem_cons_self ..), hstat _ (by unfold statCols; exact List.mem_cons_of_mem _ (List.mem_cons_self ..)), ?_⟩
  intro i hi ms
  have hS : ∀ f, Project.sumMu (muEdges .power N) (Project.binSum ((arange a b d).map (· ^ 2)) (muEdges .power N) f modes) i = (ms.map f).sum :=
    fun f => mu_sum modes hg a b d hd ha n N hn hN f i hi
  have hmem : l ∈ Project.allPoles poles := by
    unfold Project.allPoles
    split
    · exact List.mem_mergeSort.mpr hl
    · exact List.mem_cons_of_mem _ (List.mem_mergeSort.mpr hl)
  have hlt := List.idxOf_lt_length_of_mem hmem
  have hr : (Project.result1d true ((arange a b d).map (· ^ 2)) (muEdges .power N) modes poles i).2.1.getD p (none, none) =
      (Project.mean (fun m => (Project.poleTerm true l m).re) ms, Project.mean (fun m => (Project.poleTerm true l m).im) ms) := by
    unfold Project.result1d Project.mean Project.ratio
    simp only [hS]
    rw [List.getD_eq_getElem?_getD, List.getElem?_map, hp, Option.map_some, Option.getD_some, List.getD_eq_getElem?_getD, List.getElem?_map,
      List.getElem?_eq_getElem hlt]
    simp only [Option.map_some, Option.getD_some, List.getElem_idxOf]
  simp only [List.map_map, List.getElem?_map, hn, Nat.add_sub_cancel, List.getElem?_range hi, Option.map_some, Function.comp_def, hr, and_self]

-- the spacing in a box of unequal sides
example (e : Env) : Spacing e .power [3, 2, 4] [8, 16, 8] (2 * e.pi / 4) := ⟨4, by simp, by simp; norm_num, rfl⟩

example (e : Env) : Spacing e .corr [3, 2, 4] [8, 16, 8] (1 / 8) := by
  refine ⟨1, 2, 16, rfl, rfl, by norm_num, fun j L n h1 h2 => ?_⟩
  match j with
  | 0 => simp at h1 h2; subst h1 h2; norm_num
  | 1 => simp at h1 h2; subst h1 h2; norm_num
  | 2 => simp at h1 h2; subst h1 h2; norm_num
  | j + 3 => simp at h1

/-- The modes 0, 1 and 2 along the line of sight. -/
def lineModes : List (List (List Project.Mode)) :=
  [[[⟨0, 0, 0, false, 1, ⟨0, 0⟩⟩, ⟨1, 1, 1, true, 2, ⟨5, 1⟩⟩]], [[⟨4, 2, 1, false, 1, ⟨7, 2⟩⟩]]]

example : GoodModes lineModes := by
  intro m hm
  simp [lineModes, Project.modes] at hm
  rcases hm with rfl | rfl | rfl <;> norm_num

end NBK.FftObj
