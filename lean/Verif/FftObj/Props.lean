import Verif.FftObj.Model
import Verif.Project.Props
import Verif.Binned.Props
import Mathlib.Tactic.FieldSimp
import Mathlib.Tactic.Linarith
import Mathlib.Tactic.Ring
import Mathlib.Tactic.ByContra

/-!
# Properties of the objects `FFTPower` and `FFTCorr`
-/
set_option linter.unusedSimpArgs false
namespace NBK.FftObj
open NBK

/-! ## Sources -/

/-- A box and a mesh have three components, and the meshes of the caller are objects of the caller. -/
def WFSrc : Src → Prop
  | .field _ _ b n => b.length = 3 ∧ n.length = 3
  | .catalog _ _ b n => (∀ x, b = some x → x.length = 3) ∧ ∀ x, n = some x → x.length = 3
  | .mesh m => m.box.length = 3 ∧ m.nmesh.length = 3 ∧ ∃ i, m.ident = .given i
  | .other => True

theorem mismatch_iff {α : Type} [DecidableEq α] (a : List α) (ha : a.length = 3) (g : Option (Dim α)) :
    mismatch a g = false ↔ ∀ d, g = some d → a = d.three := by
  obtain ⟨x, y, z, rfl⟩ := List.length_eq_three.mp ha
  cases g with
  | none => simp [mismatch]
  | some d => cases d <;> simp [mismatch, Dim.three]

theorem three_length {α : Type} (d : Dim α) : d.three.length = 3 := by cases d <;> rfl

theorem wrap_length {arg : Nat} {box : Option (Dim ℚ)} {nm : Option (Dim Nat)} {s : Src} (hs : WFSrc s) {m : Mesh} (h : wrapSrc arg box nm s = .ok m) :
    m.box.length = 3 ∧ m.nmesh.length = 3 := by
  cases s with
  | field s c b n => cases h; exact hs
  | catalog s c b n =>
    unfold wrapSrc at h
    cases hb : (box.map Dim.three).or b with
    | none => simp [hb] at h
    | some b' =>
      cases hn : (nm.map Dim.three).or n with
      | none => simp [hb, hn] at h
      | some n' =>
        simp only [hb, hn, Except.ok.injEq] at h
        subst h
        constructor
        · cases box with
          | none => exact hs.1 _ (by simpa using hb)
          | some d => simp at hb; subst hb; exact three_length d
        · cases nm with
          | none => exact hs.2 _ (by simpa using hn)
          | some d => simp at hn; subst hn; exact three_length d
  | mesh m => cases h; exact ⟨hs.1, hs.2.1⟩
  | other => cases h

/-- C107: a source that is accepted is a mesh with the box and the number of cells that were asked for; without keywords those of the source. -/
theorem cast_spec (arg : Nat) (box : Option (Dim ℚ)) (nm : Option (Dim Nat)) (s : Src) (hs : WFSrc s) (m : Mesh)
    (h : castSource arg box nm s = .ok m) :
    (∀ d, box = some d → m.box = d.three) ∧ (∀ d, nm = some d → m.nmesh = d.three) ∧
    (match s with
      | .field i c b n => m = ⟨.fresh arg, i, c, b, n⟩
      | .catalog i c b n => m.ident = .fresh arg ∧ m.src = i ∧ m.comm = c ∧ (box = none → b = some m.box) ∧ (nm = none → n = some m.nmesh)
      | .mesh m' => m = m'
      | .other => False) := by
  unfold castSource at h
  cases hw : wrapSrc arg box nm s with
  | error e => rw [hw] at h; cases h
  | ok m' =>
    rw [hw] at h
    obtain ⟨l1, l2⟩ := wrap_length hs hw
    simp only [Except.bind] at h
    split at h
    · cases h
    · rename_i h1
      split at h
      · cases h
      · rename_i h2
        cases h
        refine ⟨(mismatch_iff _ l1 _).mp (by simpa using h1), (mismatch_iff _ l2 _).mp (by simpa using h2), ?_⟩
        cases s with
        | field i c b n => cases hw; rfl
        | mesh m' => cases hw; rfl
        | other => cases hw
        | catalog i c b n =>
          unfold wrapSrc at hw
          cases hb : (box.map Dim.three).or b with
          | none => simp [hb] at hw
          | some b' =>
            cases hn : (nm.map Dim.three).or n with
            | none => simp [hb, hn] at hw
            | some n' =>
              simp only [hb, hn, Except.ok.injEq] at hw
              subst hw
              refine ⟨rfl, rfl, rfl, ?_, ?_⟩
              · rintro rfl; simpa using hb
              · rintro rfl; simpa using hn

/-- C107: a source is accepted if and only if it is a field, mesh or catalog whose box and mesh agree with the keywords, or a catalog for which a box
and a mesh are known. -/
theorem cast_ok_iff (arg : Nat) (box : Option (Dim ℚ)) (nm : Option (Dim Nat)) (s : Src) (hs : WFSrc s) :
    (∃ m, castSource arg box nm s = .ok m) ↔
    match s with
      | .field _ _ b n => (∀ d, box = some d → b = d.three) ∧ ∀ d, nm = some d → n = d.three
      | .catalog _ _ b n => (box ≠ none ∨ b ≠ none) ∧ (nm ≠ none ∨ n ≠ none)
      | .mesh m => (∀ d, box = some d → m.box = d.three) ∧ ∀ d, nm = some d → m.nmesh = d.three
      | .other => False := by
  constructor
  · rintro ⟨m, h⟩
    obtain ⟨h1, h2, h3⟩ := cast_spec arg box nm s hs m h
    cases s with
    | field i c b n => simp only at h3; subst h3; exact ⟨h1, h2⟩
    | mesh m' => simp only at h3; subst h3; exact ⟨h1, h2⟩
    | other => exact h3
    | catalog i c b n =>
      simp only at h3 ⊢
      obtain ⟨_, _, _, h4, h5⟩ := h3
      constructor
      · by_contra hc; push Not at hc; rw [h4 hc.1] at hc; exact absurd hc.2 (by simp)
      · by_contra hc; push Not at hc; rw [h5 hc.1] at hc; exact absurd hc.2 (by simp)
  · intro h
    unfold castSource
    cases s with
    | field i c b n =>
      exact ⟨_, by simp [wrapSrc, Except.bind, (mismatch_iff b hs.1 box).mpr h.1, (mismatch_iff n hs.2 nm).mpr h.2]; rfl⟩
    | mesh m =>
      exact ⟨_, by simp [wrapSrc, Except.bind, (mismatch_iff m.box hs.1 box).mpr h.1, (mismatch_iff m.nmesh hs.2.1 nm).mpr h.2]; rfl⟩
    | other => exact h.elim
    | catalog i c b n =>
      obtain ⟨b', hb⟩ : ∃ b', (box.map Dim.three).or b = some b' := by
        cases box with
        | some d => exact ⟨_, rfl⟩
        | none => cases b with
          | some d => exact ⟨_, rfl⟩
          | none => exact absurd h.1 (by simp)
      obtain ⟨n', hn⟩ : ∃ n', (nm.map Dim.three).or n = some n' := by
        cases nm with
        | some d => exact ⟨_, rfl⟩
        | none => cases n with
          | some d => exact ⟨_, rfl⟩
          | none => exact absurd h.2 (by simp)
      have hw : wrapSrc arg box nm (.catalog i c b n) = .ok ⟨.fresh arg, i, c, b', n'⟩ := by simp [wrapSrc, hb, hn]
      obtain ⟨l1, l2⟩ := wrap_length hs hw
      have e1 : mismatch b' box = false := (mismatch_iff b' l1 box).mpr (by
        rintro d rfl; simpa using hb.symm)
      have e2 : mismatch n' nm = false := (mismatch_iff n' l2 nm).mpr (by
        rintro d rfl; simpa using hn.symm)
      exact ⟨_, by rw [hw]; simp [Except.bind, e1, e2]; rfl⟩

/-- The sources are one mesh: there is only one, or the caller passed the same mesh object twice. -/
def AutoCall (first : Src) (second : Option Src) : Prop :=
  second = none ∨ ∃ m m', first = .mesh m ∧ second = some (.mesh m') ∧ m.ident = m'.ident

/-- C107: what the two sources are. -/
theorem both_spec (box : Option (Dim ℚ)) (nm : Option (Dim Nat)) (first : Src) (second : Option Src) (h1 : WFSrc first)
    (h2 : ∀ s, second = some s → WFSrc s) (m1 m2 : Mesh) (h : castBoth box nm first second = .ok (m1, m2)) :
    castSource 0 box nm first = .ok m1 ∧ (∀ s, second = some s → castSource 1 box nm s = .ok m2) ∧ (second = none → m2 = m1) ∧
    m1.comm = m2.comm ∧ m1.box = m2.box ∧ (isSame m1 m2 = true ↔ AutoCall first second) := by
  unfold castBoth at h
  cases hc1 : castSource 0 box nm first with
  | error e => rw [hc1] at h; cases h
  | ok n1 =>
    rw [hc1] at h
    simp only [Except.bind] at h
    cases hc2 : castSecond box nm n1 second with
    | error e => rw [hc2] at h; cases h
    | ok n2 =>
      rw [hc2] at h
      simp only at h
      split at h
      · cases h
      · rename_i e1
        split at h
        · cases h
        · rename_i e2
          cases h
          refine ⟨rfl, ?_, ?_, by simpa using e1, by simpa using e2, ?_⟩
          · rintro s rfl; exact hc2
          · rintro rfl; cases hc2; rfl
          · cases second with
            | none => cases hc2; simp [isSame, AutoCall]
            | some s =>
              have k1 := (cast_spec 0 box nm first h1 m1 hc1).2.2
              have k2 := (cast_spec 1 box nm s (h2 s rfl) m2 hc2).2.2
              have w2 := h2 s rfl
              have i1 : (m1.ident = .fresh 0 ∧ ∀ m, first ≠ .mesh m) ∨ first = .mesh m1 ∧ ∃ i, m1.ident = .given i := by
                cases first with
                | field i c b n => simp only at k1; subst k1; simp
                | catalog i c b n => simp only at k1; simp [k1.1]
                | mesh m => simp only at k1; subst k1; exact .inr ⟨rfl, h1.2.2⟩
                | other => exact k1.elim
              have i2 : (m2.ident = .fresh 1 ∧ ∀ m, s ≠ .mesh m) ∨ s = .mesh m2 ∧ ∃ i, m2.ident = .given i := by
                cases s with
                | field i c b n => simp only at k2; subst k2; simp
                | catalog i c b n => simp only at k2; simp [k2.1]
                | mesh m => simp only at k2; subst k2; exact .inr ⟨rfl, w2.2.2⟩
                | other => exact k2.elim
              unfold isSame AutoCall
              rcases i1 with ⟨a1, a2⟩ | ⟨a1, i, a2⟩ <;> rcases i2 with ⟨b1, b2⟩ | ⟨b1, j, b2⟩
              · simp [a1, b1, a2]
              · simp [a1, b2, a2]
              · simp [a2, b1, b2]
              · subst a1 b1; simp [a2, b2]

/-! ## Bins -/

theorem arange_get (a b d : ℚ) (i : Nat) (hi : i < (arange a b d).length) : (arange a b d)[i] = a + i * d := by
  simp [arange]

theorem arange_length (a b d : ℚ) (hd : 0 < d) (n : Nat) : n < (arange a b d).length ↔ a + n * d < b := by
  unfold arange
  rw [List.length_map, List.length_range, Int.lt_toNat, Int.lt_ceil, lt_div_iff₀ hd]
  push_cast
  constructor <;> intro h <;> linarith

/-- C107: the bins begin at the lower bound, have the width asked for, and end with the last multiple of the width below the upper bound. -/
theorem arange_spec (a b d : ℚ) (hd : 0 < d) (hab : a < b) :
    ∃ n : Nat, (arange a b d).length = n + 1 ∧ (arange a b d).head? = some a ∧ (arange a b d).getLast? = some (a + n * d) ∧
      a + n * d < b ∧ b ≤ a + (n + 1) * d ∧ (arange a b d).Pairwise (· < ·) ∧ ∀ i, i ≤ n → (arange a b d)[i]? = some (a + i * d) := by
  have h0 : 0 < (arange a b d).length := (arange_length a b d hd 0).mpr (by simpa using hab)
  obtain ⟨n, hn⟩ : ∃ n, (arange a b d).length = n + 1 := ⟨(arange a b d).length - 1, by omega⟩
  have hg : ∀ i, i ≤ n → (arange a b d)[i]? = some (a + i * d) := by
    intro i hi
    rw [List.getElem?_eq_getElem (by omega), arange_get]
  refine ⟨n, hn, ?_, ?_, (arange_length a b d hd n).mp (by omega), ?_, ?_, hg⟩
  · rw [List.head?_eq_getElem?, hg 0 (by omega)]; simp
  · rw [List.getLast?_eq_getElem?, hn]; exact hg n (le_refl _)
  · by_contra hc
    have := (arange_length a b d hd (n + 1)).mpr (by push_cast; linarith)
    omega
  · rw [List.pairwise_iff_getElem]
    intro i j hi hj hij
    rw [arange_get, arange_get]
    have : (i : ℚ) < j := by exact_mod_cast hij
    nlinarith

/-- C107: every value from the lower bound up to the last edge is in exactly one bin. -/
theorem arange_bins (a b d : ℚ) (hd : 0 < d) (n : Nat) (hn : (arange a b d).length = n + 1) (v : ℚ) :
    (∃ i, Project.InBin (arange a b d) i v) ↔ 0 < n ∧ a ≤ v ∧ v < a + n * d := by
  have hab : a < b := by simpa using (arange_length a b d hd 0).mp (by omega)
  obtain ⟨n', h1, h2, h3, h4, h5, h6, h7⟩ := arange_spec a b d hd hab
  obtain rfl : n' = n := by omega
  by_cases hz : n' = 0
  · subst hz
    simp only [lt_irrefl, false_and, iff_false, not_exists]
    rintro i ⟨lo, up, _, h, _⟩
    have := (List.getElem?_eq_some_iff.mp h).1
    omega
  · rw [Project.bin_exists _ h6 (by omega), h2, h3]
    constructor
    · rintro ⟨lo, up, e1, e2, e3, e4⟩; cases e1; cases e2; exact ⟨by omega, e3, e4⟩
    · rintro ⟨_, e1, e2⟩; exact ⟨_, _, rfl, rfl, e1, e2⟩

/-- C107: the default bins of the power in a cubic box with an even number of cells: the multiples of the fundamental mode up to and including the
Nyquist frequency. -/
theorem cube_even (e : Env) (hpi : 0 < e.pi) (L : ℚ) (hL : 0 < L) (N : Nat) :
    arange 0 (xmaxDefault e .power [L, L, L] [2 * N, 2 * N, 2 * N] (dxDefault e .power [L, L, L] [2 * N, 2 * N, 2 * N]))
      (dxDefault e .power [L, L, L] [2 * N, 2 * N, 2 * N]) = (List.range (N + 1)).map fun i : Nat => i * (2 * e.pi / L) := by
  have hd : 0 < 2 * e.pi / L := by positivity
  unfold arange xmaxDefault dxDefault minOf maxOf
  simp only [List.map_cons, List.map_nil, List.tail_cons, List.foldl_cons, List.foldl_nil, List.headD_cons, min_self, max_self, sub_zero, zero_add]
  congr 2
  have : (e.pi * ((2 * N : ℕ) : ℚ) / L + 2 * e.pi / L / 2) / (2 * e.pi / L) = N + 1 / 2 := by
    push_cast; field_simp
  rw [this]
  have : ⌈(N : ℚ) + 1 / 2⌉ = (N : ℤ) + 1 := by
    rw [Int.ceil_eq_iff]; push_cast; constructor <;> linarith
  rw [this]; omega

/-- C107: with an odd number of cells the bins end half a fundamental mode below the Nyquist frequency, so modes in between are in no bin. -/
theorem cube_odd (e : Env) (hpi : 0 < e.pi) (L : ℚ) (hL : 0 < L) (N : Nat) :
    arange 0 (xmaxDefault e .power [L, L, L] [2 * N + 1, 2 * N + 1, 2 * N + 1] (dxDefault e .power [L, L, L] [2 * N + 1, 2 * N + 1, 2 * N + 1]))
      (dxDefault e .power [L, L, L] [2 * N + 1, 2 * N + 1, 2 * N + 1]) = (List.range (N + 1)).map fun i : Nat => i * (2 * e.pi / L) := by
  have hd : 0 < 2 * e.pi / L := by positivity
  unfold arange xmaxDefault dxDefault minOf maxOf
  simp only [List.map_cons, List.map_nil, List.tail_cons, List.foldl_cons, List.foldl_nil, List.headD_cons, min_self, max_self, sub_zero, zero_add]
  congr 2
  have : (e.pi * ((2 * N + 1 : ℕ) : ℚ) / L + 2 * e.pi / L / 2) / (2 * e.pi / L) = N + 1 := by
    push_cast; field_simp; ring
  rw [this]
  have : ⌈(N : ℚ) + 1⌉ = (N : ℤ) + 1 := by
    rw [Int.ceil_eq_iff]; push_cast; constructor <;> linarith
  rw [this]; omega

/-! ## The run -/

theorem midpoints_length (p : ℚ) (l : List ℚ) : (Uedges.midpoints p l).length = l.length := by
  induction l generalizing p with
  | nil => rfl
  | cons a l ih => simp [Uedges.midpoints, ih]

/-- The coordinates fit the edges. -/
theorem xBins_fit (e : Env) (k : Kind) (a : Attrs) (modes : List (List (List Project.Mode))) (ed : List ℚ) (cs : Option (List ℚ))
    (h : xBins e k a modes = .ok (ed, cs)) : ∀ c, cs = some c → ed.length = c.length + 1 := by
  unfold xBins at h
  simp only at h
  split at h
  · cases h; intro c hc; cases hc
  · split at h
    · rename_i ed' cs' hu
      cases h
      intro c hc; cases hc
      unfold Uedges.findUniqueEdges at hu
      dsimp only at hu
      generalize Uedges.centers e.root (fundamental e k a.box a.nmesh) _ _ = fx at hu
      match fx with
      | [] => cases hu
      | [a] => cases hu
      | a :: b :: l =>
        simp only [Uedges.edgesOf, Except.map, Except.ok.injEq, Prod.mk.injEq] at hu
        obtain ⟨rfl, rfl⟩ := hu
        simp [midpoints_length]
    · cases h

theorem centers_length (e : List ℚ) : (Binned.centers e).length = e.length - 1 := by
  simp [Binned.centers]

/-- What `__init__` of the results gives in one dimension. -/
theorem init1 (d : String) (ed : List ℚ) (n : List Nat) (data : List Binned.Col) (fts : List String) (cs : Option (List ℚ)) (a : Attrs)
    (hc : ∀ c, cs = some c → ed.length = c.length + 1) :
    Binned.init [d] [ed] n data fts (some [cs]) a = if n = [ed.length - 1] then
      .ok ⟨[d], [ed], [cs.getD (Binned.centers ed)], data, Binned.maskOf (ed.length - 1) data, a, fts⟩ else .error .valueError := by
  unfold Binned.init
  by_cases hn : n = [ed.length - 1]
  · subst hn
    have : (cs.getD (Binned.centers ed)).length = ed.length - 1 := by
      cases cs with
      | none => exact centers_length ed
      | some c => have := hc c rfl; simp; omega
    simp [this]
  · simp [hn]

/-- What `__init__` of the results gives in two dimensions. -/
theorem init2 (d d' : String) (ed mu : List ℚ) (n : List Nat) (data : List Binned.Col) (fts : List String) (cs : Option (List ℚ)) (a : Attrs)
    (hc : ∀ c, cs = some c → ed.length = c.length + 1) :
    Binned.init [d, d'] [ed, mu] n data fts (some [cs, none]) a = if n = [ed.length - 1, mu.length - 1] then
      .ok ⟨[d, d'], [ed, mu], [cs.getD (Binned.centers ed), Binned.centers mu], data,
        Binned.maskOf ((ed.length - 1) * (mu.length - 1)) data, a, fts⟩ else .error .valueError := by
  unfold Binned.init
  by_cases hn : n = [ed.length - 1, mu.length - 1]
  · subst hn
    have : (cs.getD (Binned.centers ed)).length = ed.length - 1 := by
      cases cs with
      | none => exact centers_length ed
      | some c => have := hc c rfl; simp; omega
    simp [this, centers_length]
  · simp [hn]

theorem muEdges_length (k : Kind) (n : Nat) : (muEdges k n).length = n + 1 := by
  cases k <;> simp [muEdges, Corr.muEdges]

/-- The number of mu bins that is used. -/
def usedNmu (a : Attrs) : Nat := if a.mode = "1d" then 1 else a.Nmu

/-- The attributes of the results. -/
def outAttrs (e : Env) (a : Attrs) (m1 m2 : Mesh) : Attrs :=
  { a with Nmu := usedNmu a, N1 := some ((e.count m1.src).getD 0), N2 := some ((e.count m2.src).getD 0),
           shotnoise := some (if isSame m1 m2 then (e.shot m1.src).getD 0 else 0) }

/-- The statistic that a successful run returns. -/
def outStat (e : Env) (k : Kind) (a : Attrs) (m1 m2 : Mesh) (ed : List ℚ) (cs : Option (List ℚ)) : Binned.BS Attrs :=
  let modes := e.stat3d k a.nmesh m1.src m2.src
  let mu := muEdges k (usedNmu a)
  let data := statData k (a.mode = "1d") ed mu modes (a.poles.map Int.toNat)
  if a.mode = "1d" then ⟨[k.dim], [ed], [cs.getD (Binned.centers ed)], data, Binned.maskOf (ed.length - 1) data, outAttrs e a m1 m2, ["modes"]⟩
  else ⟨[k.dim, "mu"], [ed, mu], [cs.getD (Binned.centers ed), Binned.centers mu], data, Binned.maskOf ((ed.length - 1) * usedNmu a) data,
    outAttrs e a m1 m2, ["modes"]⟩

/-- The multipoles that a successful run returns. -/
def outPoles (e : Env) (k : Kind) (a : Attrs) (m1 m2 : Mesh) (ed : List ℚ) (cs : Option (List ℚ)) : Option (Binned.BS Attrs) :=
  let data := poleData k ed (muEdges k (usedNmu a)) (e.stat3d k a.nmesh m1.src m2.src) (a.poles.map Int.toNat)
  if a.poles = [] then none
  else some ⟨[k.dim], [ed], [cs.getD (Binned.centers ed)], data, Binned.maskOf (ed.length - 1) data, outAttrs e a m1 m2, ["modes"]⟩

/-- C107 (core): the run with given bins. -/
theorem run_eq (e : Env) (k : Kind) (a : Attrs) (m1 m2 : Mesh) (hmode : a.mode = "1d" ∨ a.mode = "2d") (ed : List ℚ) (cs : Option (List ℚ))
    (hb : xBins e k a (e.stat3d k a.nmesh m1.src m2.src) = .ok (ed, cs)) (hsq : (ed.map (· ^ 2)).Pairwise (· ≤ ·)) :
    run e k a m1 m2 =
      if a.poles.any (· < 0) then .error .valueError
      else if ed.length = 2 ∧ usedNmu a = 1 then .error .indexError
      else if ¬ a.poles.Nodup ∨ ed = [] ∨ (a.mode = "2d" ∧ (ed.length = 2 ∨ a.Nmu = 1)) then .error .valueError
      else .ok ⟨outAttrs e a m1 m2, outStat e k a m1 m2 ed cs, some (outPoles e k a m1 m2 ed cs)⟩ := by
  have hfit := xBins_fit e k a _ ed cs hb
  unfold run
  simp only [Corr.powerAttrs, hb, Except.bind]
  rw [if_neg (by simpa using hsq)]
  by_cases hneg : a.poles.any (· < 0)
  · simp [hneg]
  rw [if_neg hneg, if_neg hneg]
  have hnd : (a.poles.map Int.toNat).Nodup ↔ a.poles.Nodup := by
    constructor
    · exact List.Nodup.of_map _
    · intro h
      apply h.map_on
      intro x hx y hy hxy
      simp only [List.any_eq_true, decide_eq_true_eq, not_exists, not_and, not_lt] at hneg
      have := hneg x hx; have := hneg y hy; omega
  have hempty : a.poles.map Int.toNat = [] ↔ a.poles = [] := by simp
  have hpo : ∀ (co : Option (List ℚ)) (pd : List Binned.Col) (at' : Attrs), (∀ c, co = some c → ed.length = c.length + 1) →
      Binned.init [k.dim] [ed] [ed.length - 1] pd ["modes"] (some [co]) at' =
        .ok ⟨[k.dim], [ed], [co.getD (Binned.centers ed)], pd, Binned.maskOf (ed.length - 1) pd, at', ["modes"]⟩ := by
    intro co pd at' hco
    rw [init1 _ _ _ _ _ _ _ hco, if_pos rfl]
  have hco : ∀ c, (some (cs.getD (Binned.centers ed))) = some c → ed ≠ [] → ed.length = c.length + 1 := by
    intro c hc hne
    have hpos := List.length_pos_of_ne_nil hne
    cases cs with
    | none => simp at hc; rw [← hc, centers_length]; omega
    | some c' => simp at hc; subst hc; exact hfit _ rfl
  have hwant : ∀ (b : Binned.BS Attrs), b.coords.head? = some (cs.getD (Binned.centers ed)) → ed ≠ [] →
      ∀ (pd : List Binned.Col) (at' : Attrs), Binned.init [k.dim] [ed] [ed.length - 1] pd ["modes"]
        (some [poleCoords k b cs]) at' =
        .ok ⟨[k.dim], [ed], [cs.getD (Binned.centers ed)], pd, Binned.maskOf (ed.length - 1) pd, at', ["modes"]⟩ := by
    intro b h2 hne pd at'
    cases k with
    | power =>
      simp only [poleCoords, h2]
      rw [hpo _ _ _ (fun c hc => hco c hc hne)]
      simp
    | corr => exact hpo _ _ _ hfit
  by_cases h1d : a.mode = "1d"
  · have hu : usedNmu a = 1 := by simp [usedNmu, h1d]
    have h2d : ¬ a.mode = "2d" := by rw [h1d]; decide
    by_cases h2 : ed.length = 2
    · simp [h2, squeezeShape, h1d, hu]
    · have h2' : ed.length - 1 ≠ 1 := by omega
      simp only [h1d, if_true, squeezeShape, List.filter_cons, decide_not, List.filter_nil, h2', decide_false, Bool.not_false,
        decide_true, Bool.not_true, Bool.false_eq_true, if_false, List.cons_ne_nil, hnd, h2, false_and, h2d]
      by_cases hn : a.poles.Nodup
      · by_cases he : ed = []
        · simp [hn, he]
        · simp only [hn, he, not_true, if_false, or_self, false_or, if_true]
          simp only [makeDatasets, h1d, if_true, init1 _ _ _ _ _ _ _ hfit, lift, Except.bind, hempty]
          by_cases hp : a.poles = []
          · simp [hp, outAttrs, outStat, outPoles, usedNmu, h1d]
          · simp only [hp, if_false, List.headD_cons]
            rw [hwant _ (by rfl) he]
            simp [hp, outAttrs, outStat, outPoles, usedNmu, h1d, lift]
      · simp [hn]
  · have h2d : a.mode = "2d" := by rcases hmode with h | h; exact absurd h h1d; exact h
    have hu : usedNmu a = a.Nmu := by simp [usedNmu, h1d]
    have h21 : ¬ (("2d" : String) = "1d") := by decide
    simp only [h2d, h21, if_false, hnd, true_and, hu]
    have hml : (muEdges k a.Nmu).length - 1 = a.Nmu := by rw [muEdges_length]; rfl
    by_cases hboth : ed.length = 2 ∧ a.Nmu = 1
    · simp [hboth, squeezeShape]
    · rw [if_neg hboth]
      have hsq1 : squeezeShape [ed.length - 1, a.Nmu] = .ok ([ed.length - 1, a.Nmu].filter (· ≠ 1)) := by
        unfold squeezeShape
        rw [if_neg]
        simp only [List.filter_eq_nil_iff, List.mem_cons, List.not_mem_nil, or_false, forall_eq_or_imp, forall_eq, decide_eq_true_eq, not_not]
        intro hh; exact hboth ⟨by omega, hh.2⟩
      rw [hsq1]
      simp only
      have hshape : ([ed.length - 1, a.Nmu].filter (· ≠ 1) = [ed.length - 1, (muEdges k a.Nmu).length - 1]) ↔ ¬ (ed.length = 2 ∨ a.Nmu = 1) := by
        rw [hml]
        have e1 : ed.length = 2 ↔ ed.length - 1 = 1 := by omega
        rw [e1]
        generalize ed.length - 1 = n
        by_cases g1 : n = 1 <;> by_cases g2 : a.Nmu = 1 <;> simp [List.filter_cons, g1, g2]
      by_cases hn : a.poles.Nodup
      · by_cases he : ed = []
        · simp [hn, he]
        · simp only [hn, he, not_true, if_false, false_or]
          simp only [makeDatasets, h2d, h1d, if_false, init2 _ _ _ _ _ _ _ _ _ hfit, hshape, h21]
          by_cases hbad : ed.length = 2 ∨ a.Nmu = 1
          · simp [hbad, lift, Except.bind, Err.ofBinned]
          · simp only [hbad, not_false_eq_true, if_true, if_false, lift, Except.bind, hempty]
            by_cases hp : a.poles = []
            · simp [hp, outAttrs, outStat, outPoles, usedNmu, h2d, hml]
            · simp only [hp, if_false, List.headD_cons]
              rw [hwant _ (by rfl) he]
              simp [hp, outAttrs, outStat, outPoles, usedNmu, h2d, hml, lift]
      · simp [hn]

/-- The attributes before the run. -/
def inAttrs (e : Env) (k : Kind) (g : Args) (los : List ℚ) (m : Mesh) : Attrs :=
  ⟨m.nmesh, m.box, m.box.prod, g.mode, los, g.poles.getD [], g.dx.getD (dxDefault e k m.box m.nmesh), g.xmin, g.xmax, g.Nmu, none, none, none⟩

/-- The checks of the arguments come before anything else. -/
theorem new_eq (e : Env) (k : Kind) (first : Src) (second : Option Src) (g : Args) (o : Obj) :
    new e k first second g = .ok o ↔ (g.mode = "1d" ∨ g.mode = "2d") ∧ ∃ los, g.los = some los ∧ los.length = 3 ∧
      Binned.allclose (los.map (· ^ 2)).sum 1 = true ∧ ∃ m1 m2, castBoth g.box g.nmesh first second = .ok (m1, m2) ∧
      run e k (inAttrs e k g los m1) m1 m2 = .ok o := by
  unfold new
  by_cases hm : g.mode ≠ "1d" ∧ g.mode ≠ "2d"
  · rw [if_pos hm]
    constructor
    · intro h; cases h
    · rintro ⟨h | h, _⟩
      · exact absurd h hm.1
      · exact absurd h hm.2
  · rw [if_neg hm]
    have hm' : g.mode = "1d" ∨ g.mode = "2d" := by
      by_contra hc; push Not at hc; exact hm hc
    simp only [hm', true_and]
    cases hl : g.los with
    | none => simp
    | some los =>
      simp only [Option.some.injEq, exists_eq_left']
      by_cases h3 : los.length = 3
      · by_cases hu : Binned.allclose (los.map (· ^ 2)).sum 1 = true
        · simp only [h3, hu, ne_eq, not_true, if_false, true_and, not_true_eq_false]
          cases hc : castBoth g.box g.nmesh first second with
          | error e => simp [Except.bind]
          | ok ms =>
            obtain ⟨m1, m2⟩ := ms
            simp only [Except.bind, Except.ok.injEq, Prod.mk.injEq]
            constructor
            · intro h; exact ⟨m1, m2, ⟨rfl, rfl⟩, h⟩
            · rintro ⟨_, _, ⟨rfl, rfl⟩, h⟩; exact h
        · simp [h3, hu]
      · simp [h3]

theorem xBins_pos (e : Env) (k : Kind) (a : Attrs) (modes : List (List (List Project.Mode))) (hd : 0 < a.dx) :
    xBins e k a modes = .ok (arange a.xmin (a.xmax.getD (xmaxDefault e k a.box a.nmesh a.dx)) a.dx, none) := by
  unfold xBins
  simp [hd]

theorem arange_sq (a b d : ℚ) (hd : 0 < d) (ha : 0 ≤ a) : ((arange a b d).map (· ^ 2)).Pairwise (· < ·) := by
  rw [List.pairwise_map, List.pairwise_iff_getElem]
  intro i j hi hj hij
  rw [arange_get, arange_get]
  have h1 : (i : ℚ) < j := by exact_mod_cast hij
  have h2 : (0 : ℚ) ≤ i := by positivity
  have h3 : a + i * d < a + j * d := by nlinarith
  have h4 : 0 ≤ a + i * d := by positivity
  nlinarith

theorem arange_empty (a b d : ℚ) (hd : 0 < d) : arange a b d = [] ↔ b ≤ a := by
  have := arange_length a b d hd 0
  simp only [Nat.cast_zero, zero_mul, add_zero] at this
  rw [← List.length_eq_zero_iff, ← not_lt, ← this]
  omega

theorem arange_two (a b d : ℚ) (hd : 0 < d) : (arange a b d).length = 2 ↔ a + d < b ∧ b ≤ a + 2 * d := by
  have h1 := arange_length a b d hd 1
  have h2 := arange_length a b d hd 2
  push_cast at h1 h2
  rw [one_mul] at h1
  rw [← h1, ← not_lt, ← h2]
  omega

/-- C107: what a call with bins of fixed width needs to succeed. Besides valid arguments: some bins, multipoles that are distinct and not
negative, more (or less) than one bin, and in two dimensions not exactly one mu bin. -/
theorem new_ok_partial (e : Env) (k : Kind) (first : Src) (second : Option Src) (g : Args) (m1 m2 : Mesh)
    (hc : castBoth g.box g.nmesh first second = .ok (m1, m2)) (d b : ℚ) (hd : d = g.dx.getD (dxDefault e k m1.box m1.nmesh)) (hpos : 0 < d)
    (hb : b = g.xmax.getD (xmaxDefault e k m1.box m1.nmesh d)) (hmin : 0 ≤ g.xmin) :
    (∃ o, new e k first second g = .ok o) ↔ (g.mode = "1d" ∨ g.mode = "2d") ∧
      (∃ los, g.los = some los ∧ los.length = 3 ∧ |(los.map (· ^ 2)).sum - 1| ≤ 1 / 10 ^ 8 + 1 / 10 ^ 5) ∧
      (∀ l ∈ g.poles.getD [], 0 ≤ l) ∧ (g.poles.getD []).Nodup ∧ g.xmin < b ∧ ¬ (g.xmin + d < b ∧ b ≤ g.xmin + 2 * d) ∧
      (g.mode = "2d" → g.Nmu ≠ 1) := by
  have hclose : ∀ q : ℚ, Binned.allclose q 1 = true ↔ |q - 1| ≤ 1 / 10 ^ 8 + 1 / 10 ^ 5 := by
    intro q; unfold Binned.allclose; simp
  have hrun : ∀ los, (g.mode = "1d" ∨ g.mode = "2d") → ((∃ o, run e k (inAttrs e k g los m1) m1 m2 = .ok o) ↔
      (∀ l ∈ g.poles.getD [], 0 ≤ l) ∧ (g.poles.getD []).Nodup ∧ g.xmin < b ∧ ¬ (g.xmin + d < b ∧ b ≤ g.xmin + 2 * d) ∧
      (g.mode = "2d" → g.Nmu ≠ 1)) := by
    intro los hm
    have hx := xBins_pos e k (inAttrs e k g los m1) (e.stat3d k m1.nmesh m1.src m2.src) (by show 0 < g.dx.getD _; rw [← hd]; exact hpos)
    have hx' : xBins e k (inAttrs e k g los m1) (e.stat3d k m1.nmesh m1.src m2.src) = .ok (arange g.xmin b d, none) := by
      rw [hx]; simp only [inAttrs, ← hd, ← hb]
    rw [run_eq e k (inAttrs e k g los m1) m1 m2 hm _ _ hx' ((arange_sq _ _ _ hpos hmin).imp le_of_lt)]
    have e1 : (inAttrs e k g los m1).poles = g.poles.getD [] := rfl
    have e2 : (inAttrs e k g los m1).mode = g.mode := rfl
    have e3 : (inAttrs e k g los m1).Nmu = g.Nmu := rfl
    rw [e1, e2, e3]
    have hneg : (g.poles.getD []).any (· < 0) = true ↔ ¬ ∀ l ∈ g.poles.getD [], 0 ≤ l := by
      simp [List.any_eq_true]
    have hu : usedNmu (inAttrs e k g los m1) = if g.mode = "1d" then 1 else g.Nmu := rfl
    rw [hu, ← arange_two _ _ _ hpos, ← not_le, ← arange_empty _ _ _ hpos]
    by_cases hn : ∀ l ∈ g.poles.getD [], 0 ≤ l
    · rw [if_neg (by rw [hneg]; simpa using hn)]
      rw [and_iff_right hn]
      rcases hm with hm | hm
      · have h21 : ¬ (g.mode = "2d") := by rw [hm]; decide
        simp only [hm, if_true, and_true, h21, false_and, or_false]
        by_cases h2 : (arange g.xmin b d).length = 2
        · simp [h2]
        · by_cases hnd : (g.poles.getD []).Nodup <;> by_cases hem : arange g.xmin b d = [] <;> simp [h2, hnd, hem]
      · have h21 : ¬ (g.mode = "1d") := by rw [hm]; decide
        simp only [hm, h21, if_false, true_and, show ¬ (("2d" : String) = "1d") by decide]
        by_cases h2 : (arange g.xmin b d).length = 2 <;> by_cases h3 : g.Nmu = 1
        · simp [h2, h3]
        · simp [h2, h3]
        · simp [h2, h3]
        · by_cases hnd : (g.poles.getD []).Nodup <;> by_cases hem : arange g.xmin b d = [] <;> simp [h2, h3, hnd, hem]
    · rw [if_pos (by rw [hneg]; exact hn)]
      simp [hn]
  constructor
  · rintro ⟨o, h⟩
    obtain ⟨hm, los, h1, h2, h3, m1', m2', h4, h5⟩ := (new_eq e k first second g o).mp h
    rw [hc] at h4; cases h4
    exact ⟨hm, ⟨los, h1, h2, (hclose _).mp h3⟩, (hrun los hm).mp ⟨o, h5⟩⟩
  · rintro ⟨hm, ⟨los, h1, h2, h3⟩, h⟩
    obtain ⟨o, ho⟩ := (hrun los hm).mpr h
    exact ⟨o, (new_eq e k first second g o).mpr ⟨hm, los, h1, h2, (hclose _).mpr h3, m1, m2, hc, ho⟩⟩

/-- C107, negation: a power spectrum or correlation function in a single bin is an IndexError in one dimension. -/
theorem single_bin (e : Env) (k : Kind) (a : Attrs) (m1 m2 : Mesh) (hm : a.mode = "1d") (ed : List ℚ) (cs : Option (List ℚ))
    (hb : xBins e k a (e.stat3d k a.nmesh m1.src m2.src) = .ok (ed, cs)) (hsq : (ed.map (· ^ 2)).Pairwise (· ≤ ·)) (h2 : ed.length = 2)
    (hp : ∀ l ∈ a.poles, 0 ≤ l) : run e k a m1 m2 = .error .indexError := by
  rw [run_eq e k a m1 m2 (.inl hm) ed cs hb hsq, if_neg (by simpa using hp), if_pos ⟨h2, by simp [usedNmu, hm]⟩]

/-- C107, negation: one mu bin in two dimensions is a ValueError, for any number of bins but one. -/
theorem single_mu (e : Env) (k : Kind) (a : Attrs) (m1 m2 : Mesh) (hm : a.mode = "2d") (ed : List ℚ) (cs : Option (List ℚ))
    (hb : xBins e k a (e.stat3d k a.nmesh m1.src m2.src) = .ok (ed, cs)) (hsq : (ed.map (· ^ 2)).Pairwise (· ≤ ·)) (h2 : ed.length ≠ 2)
    (h1 : a.Nmu = 1) : run e k a m1 m2 = .error .valueError := by
  rw [run_eq e k a m1 m2 (.inr hm) ed cs hb hsq]
  split
  · rfl
  · rw [if_neg (fun h => h2 h.1), if_pos (.inr (.inr ⟨hm, .inr h1⟩))]

/-! ## Results -/

/-- C107: the attributes of the object and of its results: the mesh of the first source, `N1` and `N2`, and the shot noise if the two sources are the
same object. In one dimension `Nmu` is 1. -/
theorem attrs_spec (e : Env) (k : Kind) (first : Src) (second : Option Src) (h1 : WFSrc first) (h2 : ∀ s, second = some s → WFSrc s) (g : Args)
    (hs : ∀ m1 m2, castBoth g.box g.nmesh first second = .ok (m1, m2) → 0 < g.dx.getD (dxDefault e k m1.box m1.nmesh)) (hmin : 0 ≤ g.xmin)
    (o : Obj) (h : new e k first second g = .ok o) :
    ∃ m1 m2, castBoth g.box g.nmesh first second = .ok (m1, m2) ∧ o.stat.attrs = o.attrs ∧ (∀ p, o.poles = some (some p) → p.attrs = o.attrs) ∧
      o.attrs.nmesh = m1.nmesh ∧ o.attrs.box = m1.box ∧ o.attrs.volume = m1.box.prod ∧ o.attrs.mode = g.mode ∧
      o.attrs.Nmu = (if g.mode = "1d" then 1 else g.Nmu) ∧ o.attrs.N1 = some ((e.count m1.src).getD 0) ∧
      o.attrs.N2 = some ((e.count m2.src).getD 0) ∧ (AutoCall first second → o.attrs.shotnoise = some ((e.shot m1.src).getD 0)) ∧
      (¬ AutoCall first second → o.attrs.shotnoise = some 0) := by
  obtain ⟨hm, los, l1, l2, l3, m1, m2, hc, hr⟩ := (new_eq e k first second g o).mp h
  have hauto := (both_spec g.box g.nmesh first second h1 h2 m1 m2 hc).2.2.2.2.2
  have hpos : 0 < (inAttrs e k g los m1).dx := hs m1 m2 hc
  have hx := xBins_pos e k (inAttrs e k g los m1) (e.stat3d k m1.nmesh m1.src m2.src) hpos
  rw [run_eq e k _ m1 m2 hm _ _ hx ((arange_sq _ _ _ hpos hmin).imp le_of_lt)] at hr
  split at hr
  · cases hr
  · split at hr
    · cases hr
    · split at hr
      · cases hr
      · cases hr
        refine ⟨m1, m2, hc, ?_, ?_, rfl, rfl, rfl, rfl, rfl, rfl, rfl, ?_, ?_⟩
        · show (outStat _ _ _ _ _ _ _).attrs = _
          unfold outStat; dsimp only; split <;> rfl
        · intro p hp
          simp only [Option.some.injEq] at hp
          unfold outPoles at hp
          dsimp only at hp
          split at hp
          · cases hp
          · cases hp; rfl
        · intro ha; show some (if isSame m1 m2 then _ else _) = _; rw [hauto.mpr ha]; rfl
        · intro ha; show some (if isSame m1 m2 = true then _ else _) = _; rw [if_neg (fun hh => ha (hauto.mp hh))]

/-- The modes of a mesh: `norm2` is the square of the norm and the cosine is one. -/
def GoodModes (modes : List (List (List Project.Mode))) : Prop :=
  ∀ m ∈ Project.modes modes, 0 ≤ m.x ∧ m.x2 = m.x ^ 2 ∧ -1 ≤ m.mu ∧ m.mu ≤ 1

theorem mu_sorted (n : Nat) (hn : 0 < n) : (muEdges .power n).Pairwise (· < ·) := by
  unfold muEdges
  rw [List.pairwise_iff_getElem]
  intro i j hi hj hij
  simp only [List.getElem_map, List.getElem_range]
  have h1 : (i : ℚ) < j := by exact_mod_cast hij
  have h2 : (0 : ℚ) < n := by exact_mod_cast hn
  have : (i : ℚ) * 2 / n < j * 2 / n := by rw [div_lt_div_iff_of_pos_right h2]; linarith
  linarith

theorem mu_last (n : Nat) (hn : 0 < n) : (muEdges .power n).getLast? = some 1 ∧ (muEdges .power n).head? = some (-1) := by
  have h2 : (n : ℚ) ≠ 0 := by positivity
  unfold muEdges
  constructor
  · rw [List.getLast?_eq_getElem?]
    simp only [List.length_map, List.length_range, Nat.add_sub_cancel, List.getElem?_map, List.getElem?_range (Nat.lt_succ_self n), Option.map_some]
    congr 1; field_simp; norm_num
  · rw [List.head?_eq_getElem?]
    simp only [List.getElem?_map, List.getElem?_range (Nat.succ_pos n), Option.map_some]
    simp

open Classical in
/-- C107: every row of the power is the mean over exactly the modes in its bin: k from the lower edge to below the upper, mu likewise but with the last
bin closed. Rows are in C order, real and imaginary parts being those of the sum with the conjugate modes. -/
theorem power_rows (modes : List (List (List Project.Mode))) (hg : GoodModes modes) (a b d : ℚ) (hd : 0 < d) (ha : 0 ≤ a) (n Nmu : Nat)
    (hn : (arange a b d).length = n + 1) (hN : 0 < Nmu) (poles : List Nat) (i j : Nat) (hi : i < n) (hj : j < Nmu) :
    let l := (Project.modes modes).filter fun m => decide (a + i * d ≤ m.x ∧ m.x < a + (i + 1) * d ∧ Project.InMuBin (muEdges .power Nmu) j m.mu)
    let w := (l.map fun m => (m.w : ℚ)).sum
    ∃ ck cmu cre cim cN, statData .power false (arange a b d) (muEdges .power Nmu) modes poles =
        [⟨"k", false, ck⟩, ⟨"mu", false, cmu⟩, ⟨"power.real", false, cre⟩, ⟨"power.imag", false, cim⟩, ⟨"modes", true, cN⟩] ∧
      ck[i * Nmu + j]? = some (val (Project.mean (fun m => m.x * m.w) l)) ∧
      cmu[i * Nmu + j]? = some (val (Project.mean (fun m => m.mu * m.w) l)) ∧
      cre[i * Nmu + j]? = some (val (Project.mean (fun m => if m.nonsingular then 2 * m.y.re else m.y.re) l)) ∧
      cim[i * Nmu + j]? = some (val (Project.mean (fun m => if m.nonsingular then 0 else m.y.im) l)) ∧
      cN[i * Nmu + j]? = some (.fin w) := by
  intro l w
  have hab : a < b := by simpa using (arange_length a b d hd 0).mp (by omega)
  obtain ⟨n', h1, h2, h3, h4, h5, h6, h7⟩ := arange_spec a b d hd hab
  obtain rfl : n' = n := by omega
  have hpair : ∀ (n m i j : Nat), i < n → j < m → (pairs n m)[i * m + j]? = some (i, j) := by
    intro n m i j hi hj
    induction n with
    | zero => omega
    | succ n ih =>
      unfold pairs at ih ⊢
      rw [List.range_succ, List.flatMap_append]
      have hlen : ((List.range n).flatMap fun i => (List.range m).map fun j => (i, j)).length = n * m := by simp
      by_cases hin : i < n
      · rw [List.getElem?_append_left (by rw [hlen]; nlinarith)]
        exact ih hin
      · obtain rfl : i = n := by omega
        rw [List.getElem?_append_right (by rw [hlen]; omega), hlen]
        simp [hj]
  have hp := hpair n' Nmu i j hi hj
  have hres := Project.project_2d_partial true ((arange a b d).map (· ^ 2)) (muEdges .power Nmu) (arange_sq a b d hd ha) (mu_sorted Nmu hN) modes
    (by
      intro m hm e he
      rw [(mu_last Nmu hN).1] at he; cases he
      exact (hg m hm).2.2.2) poles i j (by simp [h1]; omega) (by rw [muEdges_length]; omega)
  have hl : (Project.modes modes).filter (fun m => decide (Project.InBin ((arange a b d).map (· ^ 2)) i m.x2 ∧
      Project.InMuBin (muEdges .power Nmu) j m.mu)) = l := by
    apply List.filter_congr
    intro m hm
    obtain ⟨g1, g2, _, _⟩ := hg m hm
    rw [decide_eq_decide, g2]
    have hb := Project.bin_squared (arange a b d) (by
      intro q hq
      obtain ⟨t, ht, rfl⟩ := List.mem_iff_getElem.mp hq
      rw [arange_get]; positivity) m.x g1 i
    rw [hb, ← and_assoc]
    apply and_congr_left
    intro _
    unfold Project.InBin
    rw [h7 i (by omega), h7 (i + 1) (by omega)]
    constructor
    · rintro ⟨lo, up, e1, e2, e3, e4⟩
      cases e1; cases e2; push_cast at e4; exact ⟨e3, e4⟩
    · rintro ⟨e3, e4⟩; exact ⟨_, _, rfl, rfl, e3, by push_cast; exact e4⟩
  rw [hl] at hres
  simp only [true_and] at hres
  refine ⟨_, _, _, _, _, rfl, ?_⟩
  simp only [h1, muEdges_length, Nat.add_sub_cancel, Kind.hermitian, List.map_map, List.getElem?_map, hp, Option.map_some, Function.comp, hres]
  exact ⟨trivial, trivial, trivial, trivial, rfl⟩

/-- Every cosine is in a mu bin. -/
theorem mu_in_bin (N : Nat) (hN : 0 < N) (v : ℚ) (h1 : -1 ≤ v) (h2 : v ≤ 1) : ∃ j, j < N ∧ Project.InMuBin (muEdges .power N) j v := by
  have hlen := muEdges_length .power N
  obtain ⟨hl, hh⟩ := mu_last N hN
  rcases lt_or_eq_of_le h2 with h | h
  · obtain ⟨j, hj⟩ := (Project.bin_exists _ (mu_sorted N hN) (by omega) v).mpr ⟨-1, 1, hh, hl, h1, h⟩
    refine ⟨j, ?_, .inl hj⟩
    obtain ⟨_, _, _, h, _⟩ := hj
    have := (List.getElem?_eq_some_iff.mp h).1
    omega
  · refine ⟨N - 1, by omega, .inr ⟨by omega, ?_⟩⟩
    rw [List.getLast?_eq_getElem?, hlen] at hl
    rw [show N - 1 + 1 = N + 1 - 1 by omega, hl, h]

open Classical in
/-- The modes of the mu bins of a k bin are all modes of the k bin. -/
theorem mu_sum (modes : List (List (List Project.Mode))) (hg : GoodModes modes) (a b d : ℚ) (hd : 0 < d) (ha : 0 ≤ a) (n N : Nat)
    (hn : (arange a b d).length = n + 1) (hN : 0 < N) (f : Project.Mode → ℚ) (i : Nat) (hi : i < n) :
    Project.sumMu (muEdges .power N) (Project.binSum ((arange a b d).map (· ^ 2)) (muEdges .power N) f modes) i =
      (((Project.modes modes).filter fun m => decide (a + i * d ≤ m.x ∧ m.x < a + (i + 1) * d)).map f).sum := by
  have hab : a < b := by simpa using (arange_length a b d hd 0).mp (by omega)
  obtain ⟨n', h1, h2, h3, h4, h5, h6, h7⟩ := arange_spec a b d hd hab
  obtain rfl : n' = n := by omega
  unfold Project.sumMu
  rw [Project.sum_bins _ _ (arange_sq a b d hd ha) (mu_sorted N hN) modes (by
      intro m hm e he
      rw [(mu_last N hN).1] at he; cases he
      exact (hg m hm).2.2.2) f i (by simp [h1]; omega) _ (le_refl _)]
  congr 2
  apply List.filter_congr
  intro m hm
  obtain ⟨g1, g2, g3, g4⟩ := hg m hm
  rw [decide_eq_decide, g2]
  have hb := Project.bin_squared (arange a b d) (by
    intro q hq
    obtain ⟨t, ht, rfl⟩ := List.mem_iff_getElem.mp hq
    rw [arange_get]; positivity) m.x g1 i
  rw [hb]
  have hex : ∃ j, j < (muEdges .power N).length - 1 ∧ Project.InMuBin (muEdges .power N) j m.mu := by
    rw [muEdges_length]; exact mu_in_bin N hN m.mu g3 g4
  simp only [hex, and_true]
  unfold Project.InBin
  rw [h7 i (by omega), h7 (i + 1) (by omega)]
  constructor
  · rintro ⟨lo, up, e1, e2, e3, e4⟩
    cases e1; cases e2; push_cast at e4; exact ⟨e3, e4⟩
  · rintro ⟨e3, e4⟩; exact ⟨_, _, rfl, rfl, e3, by push_cast; exact e4⟩

open Classical in
theorem x_sum (l : List Project.Mode) (a d : ℚ) (hd : 0 < d) (f : Project.Mode → ℚ) (n : Nat) :
    ((List.range n).map fun i : Nat => ((l.filter fun m => decide (a + i * d ≤ m.x ∧ m.x < a + (i + 1) * d)).map f).sum).sum =
      ((l.filter fun m => decide (a ≤ m.x ∧ m.x < a + n * d)).map f).sum := by
  induction n with
  | zero =>
    have : (l.filter fun m => decide (a ≤ m.x ∧ m.x < a + ((0 : ℕ) : ℚ) * d)) = [] := by
      rw [List.filter_eq_nil_iff]
      intro m _
      simp
    rw [this]; simp
  | succ n ih =>
    rw [List.range_succ, List.map_append, List.sum_append, ih]
    simp only [List.map_cons, List.map_nil, List.sum_cons, List.sum_nil, add_zero]
    have hnn : (0 : ℚ) ≤ n * d := by positivity
    rw [Project.sum_filter_or]
    · congr 2
      apply List.filter_congr
      intro m _
      rw [decide_eq_decide]
      push_cast
      constructor
      · rintro (⟨u, v⟩ | ⟨u, v⟩)
        · exact ⟨u, by linarith⟩
        · exact ⟨by linarith, v⟩
      · rintro ⟨u, v⟩
        rcases lt_or_ge m.x (a + n * d) with h | h
        · exact .inl ⟨u, h⟩
        · exact .inr ⟨h, v⟩
    · rintro m _ ⟨⟨_, v⟩, ⟨u, _⟩⟩
      exact absurd v (not_lt.mpr u)

def toQ : Binned.Val → ℚ
  | .fin q => q
  | _ => 0

theorem sum_pairs (n m : Nat) (f : Nat × Nat → ℚ) :
    ((pairs n m).map f).sum = ((List.range n).map fun i => ((List.range m).map fun j => f (i, j)).sum).sum := by
  unfold pairs
  induction n with
  | zero => simp
  | succ n ih =>
    rw [List.range_succ, List.flatMap_append, List.map_append, List.sum_append, ih, List.map_append, List.sum_append]
    simp [Function.comp_def]

open Classical in
/-- C107: the counts of the power and those of the multipoles both add up to the number of all modes from the lower bound up to the last edge, for any
number of mu bins. -/
theorem modes_total (modes : List (List (List Project.Mode))) (hg : GoodModes modes) (a b d : ℚ) (hd : 0 < d) (ha : 0 ≤ a) (n N : Nat)
    (hn : (arange a b d).length = n + 1) (hN : 0 < N) (oneD : Bool) (poles : List Nat) :
    ∃ cN cN', (statData .power oneD (arange a b d) (muEdges .power N) modes poles).getLast? = some ⟨"modes", true, cN⟩ ∧
      (poleData .power (arange a b d) (muEdges .power N) modes poles).getLast? = some ⟨"modes", true, cN'⟩ ∧
      (cN.map toQ).sum = (((Project.modes modes).filter fun m => decide (a ≤ m.x ∧ m.x < a + n * d)).map fun m => (m.w : ℚ)).sum ∧
      (cN'.map toQ).sum = (cN.map toQ).sum := by
  refine ⟨_, _, by unfold statData; rw [List.getLast?_append]; rfl, by unfold poleData; rw [List.getLast?_append]; rfl, ?_⟩
  simp only [List.map_map, Function.comp_def, toQ, Project.result2d, Project.result1d, hn, muEdges_length, Nat.add_sub_cancel]
  have key : ((List.range n).map fun i => Project.sumMu (muEdges .power N) (Project.binSum ((arange a b d).map (· ^ 2)) (muEdges .power N)
      (fun m => (m.w : ℚ)) modes) i).sum =
      (((Project.modes modes).filter fun m => decide (a ≤ m.x ∧ m.x < a + n * d)).map fun m => (m.w : ℚ)).sum := by
    rw [← x_sum _ a d hd _ n]
    congr 1
    apply List.map_congr_left
    intro i hi
    exact mu_sum modes hg a b d hd ha n N hn hN _ i (List.mem_range.mp hi)
  have key2 : ((pairs n N).map fun p => Project.visible (muEdges .power N) (Project.binSum ((arange a b d).map (· ^ 2)) (muEdges .power N)
      (fun m => (m.w : ℚ)) modes) p.1 p.2).sum = ((List.range n).map fun i => Project.sumMu (muEdges .power N) (Project.binSum ((arange a b d).map (· ^ 2)) (muEdges .power N)
      (fun m => (m.w : ℚ)) modes) i).sum := by
    rw [sum_pairs]
    congr 1
    apply List.map_congr_left
    intro i _
    unfold Project.sumMu
    rw [muEdges_length]
    rfl
  exact ⟨key2.trans key, key2.symm⟩

/-- C107: in one dimension the monopole is the power itself. -/
theorem monopole_1d (h : Bool) (x2 mu : List ℚ) (hmu : mu.length = 2) (modes : List (List (List Project.Mode))) (poles : List Nat) (i p : Nat)
    (hp : poles[p]? = some 0) :
    (Project.result1d h x2 mu modes poles i).2.1[p]? =
      some ((Project.result2d h x2 mu modes poles i 0).2.2.1, (Project.result2d h x2 mu modes poles i 0).2.2.2.1) := by
  have hmem : (0 : Nat) ∈ poles := List.mem_of_getElem? hp
  have hall : Project.allPoles poles = poles.mergeSort (· ≤ ·) := by
    unfold Project.allPoles; rw [if_pos (by simpa using hmem)]
  have hs : (poles.mergeSort (· ≤ ·)).Pairwise (fun a b => (decide (a ≤ b)) = true) :=
    List.pairwise_mergeSort (fun a b c => by simp; omega) (fun a b => by simp; omega) poles
  obtain ⟨l, hl⟩ : ∃ l, Project.allPoles poles = 0 :: l := by
    rw [hall]
    have hm : 0 ∈ poles.mergeSort (· ≤ ·) := List.mem_mergeSort.mpr hmem
    cases hc : poles.mergeSort (· ≤ ·) with
    | nil => rw [hc] at hm; cases hm
    | cons a l =>
      rw [hc] at hm hs
      rcases List.mem_cons.mp hm with h | h
      · exact ⟨l, by rw [h]⟩
      · have := (List.pairwise_cons.mp hs).1 0 h
        simp at this
        exact ⟨l, by rw [this]⟩
  have hsum : ∀ f : Nat → ℚ, Project.sumMu mu f i = Project.visible mu f i 0 := by
    intro f; unfold Project.sumMu; rw [hmu]; simp
  unfold Project.result1d Project.result2d
  simp [hsum, hl, List.getElem?_map, hp]

/-- C107: the same for the objects: `poles['power_0']` is `power['power']` in one dimension. -/
theorem monopole_columns (ed : List ℚ) (modes : List (List (List Project.Mode))) (poles : List Nat) :
    let st := statData .power true ed (muEdges .power 1) modes (0 :: poles)
    let po := poleData .power ed (muEdges .power 1) modes (0 :: poles)
    st.map (·.name) = ["k", "power.real", "power.imag", "modes"] ∧ (po.take 3).map (·.name) = ["k", "power_0.real", "power_0.imag"] ∧
      (po.take 3).map (·.vals) = (st.take 3).map (·.vals) := by
  intro st po
  refine ⟨rfl, ?_, ?_⟩
  · simp [po, poleData, statCols, Kind.dim, Kind.stat]
    decide +kernel
  have hmu : (muEdges .power 1).length = 2 := muEdges_length .power 1
  have h1 : ∀ i, (Project.result1d true (ed.map (· ^ 2)) (muEdges .power 1) modes (0 :: poles) i).1 =
      (Project.result2d true (ed.map (· ^ 2)) (muEdges .power 1) modes (0 :: poles) i 0).1 := by
    intro i
    have hsum : ∀ f : Nat → ℚ, Project.sumMu (muEdges .power 1) f i = Project.visible (muEdges .power 1) f i 0 := by
      intro f; unfold Project.sumMu; rw [hmu]; simp
    unfold Project.result1d Project.result2d
    simp [hsum]
  have h2 : ∀ i, (Project.result1d true (ed.map (· ^ 2)) (muEdges .power 1) modes (0 :: poles) i).2.1.getD 0 (none, none) =
      ((Project.result2d true (ed.map (· ^ 2)) (muEdges .power 1) modes (0 :: poles) i 0).2.2.1,
       (Project.result2d true (ed.map (· ^ 2)) (muEdges .power 1) modes (0 :: poles) i 0).2.2.2.1) := by
    intro i
    rw [List.getD_eq_getElem?_getD, monopole_1d _ _ _ hmu modes (0 :: poles) i 0 rfl]; rfl
  have hp : ∀ n, pairs n 1 = (List.range n).map fun i => (i, 0) := by
    intro n; unfold pairs; simp [List.flatMap_def]; induction n with
    | zero => rfl
    | succ n ih => rw [List.range_succ]; simp [ih]
  simp only [st, po, statData, poleData, statCols, List.mapIdx_cons, List.flatten_cons, List.cons_append, List.nil_append, List.take_succ_cons,
    List.take_zero, if_true, List.append_assoc]
  simp only [List.map_cons, List.map_nil, hmu, Kind.hermitian, show 2 - 1 = 1 by rfl, hp, List.map_map, Function.comp_def, h1, h2]

/-! ## Saving and loading -/

theorem val_length (k : Kind) (ed mu : List ℚ) (oneD : Bool) (modes : List (List (List Project.Mode))) (poles : List Nat) :
    (∀ c ∈ statData k oneD ed mu modes poles, c.vals.length = (ed.length - 1) * (mu.length - 1)) ∧
    ∀ c ∈ poleData k ed mu modes poles, c.vals.length = ed.length - 1 := by
  have hp : (pairs (ed.length - 1) (mu.length - 1)).length = (ed.length - 1) * (mu.length - 1) := by simp [pairs]
  constructor
  · intro c hc
    unfold statData statCols at hc
    cases k <;> cases oneD <;> simp at hc
    all_goals rcases hc with h | h
    all_goals first
      | (rw [h]; simp [hp])
      | (rcases h with h | h
         all_goals first
          | (rw [h]; simp [hp])
          | (rcases h with h | h
             all_goals first
              | (rw [h]; simp [hp])
              | (rcases h with h | h <;> (rw [h]; simp [hp]))))
  · intro c hc
    unfold poleData at hc
    simp only [List.mem_append, List.mem_singleton, List.mem_flatten, List.mem_mapIdx] at hc
    rcases hc with (h | ⟨l, ⟨i, hi, rfl⟩, h⟩) | h
    · rw [h]; simp
    · cases k <;> simp [statCols] at h
      · rcases h with h | h <;> (rw [h]; simp)
      · rw [h]; simp
    · rw [h]; simp

/-- The results are well formed and their mask is exact. -/
theorem out_wf (e : Env) (k : Kind) (a : Attrs) (m1 m2 : Mesh) (ed : List ℚ) (cs : Option (List ℚ)) (hne : ed ≠ [])
    (hfit : ∀ c, cs = some c → ed.length = c.length + 1) :
    (Binned.WF (outStat e k a m1 m2 ed cs) ∧
      (outStat e k a m1 m2 ed cs).mask = Binned.maskOf (outStat e k a m1 m2 ed cs).shape.prod (outStat e k a m1 m2 ed cs).data) ∧
    ∀ p, outPoles e k a m1 m2 ed cs = some p → Binned.WF p ∧ p.mask = Binned.maskOf p.shape.prod p.data := by
  have hpos := List.length_pos_of_ne_nil hne
  have hcl : (cs.getD (Binned.centers ed)).length = ed.length - 1 := by
    cases cs with
    | none => exact centers_length ed
    | some c => have := hfit c rfl; simp; omega
  have hml : (muEdges k (usedNmu a)).length - 1 = usedNmu a := by rw [muEdges_length]; rfl
  have hdim : k.dim ≠ "mu" := by cases k <;> decide
  constructor
  · unfold outStat
    dsimp only
    have hsz := (val_length k ed (muEdges k (usedNmu a)) (decide (a.mode = "1d")) (e.stat3d k a.nmesh m1.src m2.src) (a.poles.map Int.toNat)).1
    rw [hml] at hsz
    by_cases h1 : a.mode = "1d"
    · have hu : usedNmu a = 1 := by simp [usedNmu, h1]
      rw [if_pos h1]
      have hprod : ∀ (data : List Binned.Col) (ms : List Bool) (at' : Attrs) (f : List String),
          (Binned.BS.mk [k.dim] [ed] [cs.getD (Binned.centers ed)] data ms at' f).shape.prod = ed.length - 1 := by
        intro data ms at' f; simp [Binned.BS.shape, hcl]
      refine ⟨⟨by simp, rfl, rfl, ?_, ?_, ?_⟩, ?_⟩
      · intro i x c hx hc
        cases i with
        | zero => simp at hx hc; subst hx hc; omega
        | succ i => simp at hx
      · intro c hc; rw [hprod]; rw [hsz c hc, hu]; omega
      · rw [hprod]; simp [Binned.maskOf]
      · rw [hprod]
    · rw [if_neg h1]
      have hprod : ∀ (data : List Binned.Col) (ms : List Bool) (at' : Attrs) (f : List String),
          (Binned.BS.mk [k.dim, "mu"] [ed, muEdges k (usedNmu a)] [cs.getD (Binned.centers ed), Binned.centers (muEdges k (usedNmu a))]
            data ms at' f).shape.prod = (ed.length - 1) * usedNmu a := by
        intro data ms at' f; simp [Binned.BS.shape, hcl, centers_length, hml]
      refine ⟨⟨by simp [hdim], rfl, rfl, ?_, ?_, ?_⟩, ?_⟩
      · intro i x c hx hc
        match i with
        | 0 => simp at hx hc; subst hx hc; omega
        | 1 => simp at hx hc; subst hx hc; rw [centers_length, muEdges_length]; rfl
        | i + 2 => simp at hx
      · intro c hc; rw [hprod]; exact hsz c hc
      · rw [hprod]; simp [Binned.maskOf]
      · rw [hprod]
  · intro p hp
    unfold outPoles at hp
    dsimp only at hp
    split at hp
    · cases hp
    · cases hp
      have hsz := (val_length k ed (muEdges k (usedNmu a)) (decide (a.mode = "1d")) (e.stat3d k a.nmesh m1.src m2.src) (a.poles.map Int.toNat)).2
      have hprod : ∀ (data : List Binned.Col) (ms : List Bool) (at' : Attrs) (f : List String),
          (Binned.BS.mk [k.dim] [ed] [cs.getD (Binned.centers ed)] data ms at' f).shape.prod = ed.length - 1 := by
        intro data ms at' f; simp [Binned.BS.shape, hcl]
      refine ⟨⟨by simp, rfl, rfl, ?_, ?_, ?_⟩, ?_⟩
      · intro i x c hx hc
        cases i with
        | zero => simp at hx hc; subst hx hc; omega
        | succ i => simp at hx
      · intro c hc; rw [hprod]; exact hsz c hc
      · rw [hprod]; simp [Binned.maskOf]
      · rw [hprod]

/-- The results of a successful run. -/
theorem run_ok (e : Env) (k : Kind) (a : Attrs) (m1 m2 : Mesh) (hmode : a.mode = "1d" ∨ a.mode = "2d") (o : Obj) (h : run e k a m1 m2 = .ok o) :
    ∃ ed cs, xBins e k a (e.stat3d k a.nmesh m1.src m2.src) = .ok (ed, cs) ∧ ed ≠ [] ∧ a.poles.Nodup ∧ (∀ l ∈ a.poles, 0 ≤ l) ∧
      o = ⟨outAttrs e a m1 m2, outStat e k a m1 m2 ed cs, some (outPoles e k a m1 m2 ed cs)⟩ := by
  cases hb : xBins e k a (e.stat3d k a.nmesh m1.src m2.src) with
  | error er => unfold run at h; simp [hb, Except.bind] at h
  | ok bins =>
    obtain ⟨ed, cs⟩ := bins
    by_cases hsq : (ed.map (· ^ 2)).Pairwise (· ≤ ·)
    · rw [run_eq e k a m1 m2 hmode ed cs hb hsq] at h
      split at h
      · cases h
      · rename_i hneg
        split at h
        · cases h
        · split at h
          · cases h
          · rename_i hbad
            cases h
            push Not at hbad
            exact ⟨ed, cs, rfl, hbad.2.1, hbad.1, by simpa using hneg, rfl⟩
    · unfold run at h
      simp [hb, Except.bind, hsq] at h

/-- C107: what is read back after `save` and `load`. The attributes, edges, coordinates, data and masks are the same, and the multipoles if there were any.
The names of the fields to sum are lost, and without multipoles the attribute `poles` is missing. -/
theorem saveLoad_partial (e : Env) (k : Kind) (first : Src) (second : Option Src) (g : Args) (o : Obj) (h : new e k first second g = .ok o) :
    ∃ p, o.poles = some p ∧ saveLoad o = .ok ⟨o.attrs, { o.stat with fts := [] }, p.map fun b => some { b with fts := [] }⟩ := by
  obtain ⟨hm, los, l1, l2, l3, m1, m2, hc, hr⟩ := (new_eq e k first second g o).mp h
  obtain ⟨ed, cs, hb, hne, _, _, rfl⟩ := run_ok e k _ m1 m2 hm o hr
  obtain ⟨⟨w1, k1⟩, w2⟩ := out_wf e k (inAttrs e k g los m1) m1 m2 ed cs hne (xBins_fit e k _ _ ed cs hb)
  refine ⟨_, rfl, ?_⟩
  unfold saveLoad getstate setstate
  simp only [Except.bind, Binned.roundtrip_eq _ w1, lift, ← k1]
  cases hp : outPoles e k (inAttrs e k g los m1) m1 m2 ed cs with
  | none => rfl
  | some p =>
    obtain ⟨w, kk⟩ := w2 p hp
    simp only [Option.map_some, Binned.roundtrip_eq _ w, ← kk]

/-- C107, negation: an object without multipoles has `poles` equal to `None`, but after `save` and `load` reading `poles` is an AttributeError, and so is
saving it again. -/
theorem load_poles_missing (e : Env) (k : Kind) (first : Src) (second : Option Src) (g : Args) (o : Obj) (h : new e k first second g = .ok o)
    (hp : g.poles.getD [] = []) :
    readPoles o = .ok none ∧ ∃ o', saveLoad o = .ok o' ∧ readPoles o' = .error .attributeError ∧ saveLoad o' = .error .attributeError := by
  obtain ⟨hm, los, l1, l2, l3, m1, m2, hc, hr⟩ := (new_eq e k first second g o).mp h
  obtain ⟨p, h1, h2⟩ := saveLoad_partial e k first second g o h
  obtain ⟨ed, cs, hb, hne, _, _, rfl⟩ := run_ok e k _ m1 m2 hm o hr
  have hpn : outPoles e k (inAttrs e k g los m1) m1 m2 ed cs = none := by
    unfold outPoles; dsimp only; rw [if_pos (by exact hp)]
  rw [hpn] at h1 h2 ⊢
  simp only [Option.some.injEq] at h1
  subst h1
  exact ⟨rfl, _, h2, rfl, rfl⟩

/-! ## A case -/

/-- Three modes on one rank. -/
def env : Env :=
  ⟨22 / 7, fun q => q, fun _ _ _ _ => [[[⟨0, 0, 0, false, 1, ⟨0, 0⟩⟩, ⟨1, 1, 1, false, 1, ⟨4, 0⟩⟩], [⟨4, 2, 1 / 2, true, 2, ⟨6, 1⟩⟩]]],
    fun _ => some 100, fun _ => some 7⟩

def cat : Src := .catalog 0 0 (some [10, 10, 10]) (some [8, 8, 8])

/-- C107: a call that succeeds, with its table of the power and its multipoles. -/
theorem new_case :
    (new env .power cat none { mode := "2d", Nmu := 2, dx := some 1, xmax := some 4, poles := some [2] }).toOption.map
      (fun o => (o.stat.data.map fun c => (c.name, c.vals.map toQ), o.poles.map fun p => p.map fun b => b.data.map fun c => (c.name, c.vals.map toQ))) =
    some ([("k", [0, 0, 0, 1, 0, 2]), ("mu", [0, 0, 0, 1, 0, 1 / 2]), ("power.real", [0, 0, 0, 4, 0, 6]), ("power.imag", [0, 0, 0, 0, 0, 0]),
        ("modes", [0, 1, 0, 1, 0, 2])],
      some (some [("k", [0, 1, 2]), ("power_2.real", [0, 20, -15 / 4]), ("power_2.imag", [0, 0, 0]), ("modes", [1, 1, 2])])) := by
  decide +kernel

/-- C107, negation: passing the same catalog twice is a cross-correlation without shot noise, although the power is that of the call with one source. -/
theorem same_catalog_twice :
    let g : Args := { mode := "1d", dx := some 1, xmax := some 4 }
    ((new env .power cat none g).toOption.map fun o => o.attrs.shotnoise) = some (some 7) ∧
    ((new env .power cat (some cat) g).toOption.map fun o => o.attrs.shotnoise) = some (some 0) ∧
    ((new env .power cat none g).toOption.map fun o => o.stat.data) = ((new env .power cat (some cat) g).toOption.map fun o => o.stat.data) := by
  decide +kernel

/-- C107, negation: one bin, or one mu bin in two dimensions, is an error; duplicate multipoles too. -/
theorem single_case :
    (new env .power cat none { mode := "1d", dx := some 1, xmax := some 2 }).map (·.attrs) = .error .indexError ∧
    (new env .power cat none { mode := "2d", Nmu := 1, dx := some 1, xmax := some 4 }).map (·.attrs) = .error .valueError ∧
    (new env .power cat none { mode := "2d", dx := some 1, xmax := some 2 }).map (·.attrs) = .error .valueError ∧
    (new env .power cat none { mode := "1d", dx := some 1, xmax := some 4, poles := some [0, 0] }).map (·.attrs) = .error .valueError := by
  decide +kernel

end NBK.FftObj
