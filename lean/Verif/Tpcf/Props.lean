import Verif.Tpcf.Lemmas
import Mathlib.Algebra.Order.Ring.Rat
import Mathlib.Data.List.GetD
import Mathlib.Data.Rat.Defs
import Mathlib.Algebra.Order.Field.Basic
import Mathlib.Tactic.FieldSimp
import Mathlib.Tactic.NormNum

/-!
# The three-point correlation function (C80)
-/
set_option linter.unusedSimpArgs false

namespace NBK.Tpcf

variable {K : Type} [Field K] [LinearOrder K]

/-! ## Specification -/

/-- A separation belongs to the bin `b`: the bins are open on the left and closed on the right, and a vanishing separation is no pair. -/
def InBin (edges : List K) (b : Nat) (r : K) : Prop :=
  0 < r ∧ edges.getD b 0 < r ∧ r ≤ edges.getD (b + 1) 0

instance (edges : List K) (b : Nat) (r : K) : Decidable (InBin edges b r) := inferInstanceAs (Decidable (_ ∧ _))

/-- The sum over all triangles with a primary and two secondaries in the bins `b1` and `b2`, of the weights times a function of the two
directions. -/
def triangles (e : Env K) (leg : Vec K → Vec K → K) (prim sec : List (Obj K)) (b1 b2 : Nat) : K :=
  (prim.map fun p => ((sec.filter fun j => InBin e.edges b1 (sep e p j)).map fun j =>
    ((sec.filter fun k => InBin e.edges b2 (sep e p k)).map fun k =>
      p.w * j.w * k.w * leg (dir e p j) (dir e p k)).sum).sum).sum

/-- The addition theorem of the harmonics, on the directions that occur: `P_l(u.v)` is the sum over `-l <= m <= l` of
`Y_lm(u) conj(Y_lm(v))` times `4 pi / (2 l + 1)`, where the terms of `-m` and `m` are conjugate. -/
def AdditionTheorem (e : Env K) (leg : Nat → Vec K → Vec K → K) (l : Nat) (u v : Vec K) : Prop :=
  e.fourPi * ((List.range (l + 1)).map fun m =>
    if m = 0 then (e.Y l m u).re * (e.Y l m v).re
    else 2 * ((e.Y l m u).re * (e.Y l m v).re + (e.Y l m u).im * (e.Y l m v).im)).sum = (2 * l + 1) * leg l u v

/-! ## Bins -/

section
variable [IsStrictOrderedRing K]

omit [Field K] [IsStrictOrderedRing K] in
theorem countP_sorted (l : List K) (hs : l.Pairwise (· < ·)) (r : K) (b : Nat) (hb : b < l.length) :
    b < l.countP (· < r) ↔ l[b] < r := by
  induction l generalizing b with
  | nil => cases hb
  | cons a t ih =>
    obtain ⟨h1, h2⟩ := List.pairwise_cons.mp hs
    by_cases ha : a < r
    · rw [List.countP_cons_of_pos (by simpa using ha)]
      cases b with
      | zero => simp [ha]
      | succ b =>
        have := ih h2 b (by simpa using hb)
        simp only [List.getElem_cons_succ]
        rw [← this]; omega
    · have h0 : t.countP (· < r) = 0 := by
        rw [List.countP_eq_zero]
        intro x hx
        simp only [decide_eq_true_eq]
        intro h
        exact ha ((h1 x hx).trans h)
      rw [List.countP_cons_of_neg (by simpa using ha), h0]
      constructor
      · intro h; omega
      · intro h
        exfalso
        cases b with
        | zero => exact ha h
        | succ b => exact ha ((h1 _ (List.getElem_mem (by simpa using hb))).trans h)

omit [IsStrictOrderedRing K] in
/-- With increasing edges the index of `searchsorted` is the bin, for the bins that are kept. -/
theorem dig_iff (e : Env K) (hs : e.edges.Pairwise (· < ·)) (b : Nat) (hb : b + 1 < e.edges.length) (r : K) :
    (0 < r ∧ dig e r = b + 1) ↔ InBin e.edges b r := by
  have h1 := countP_sorted e.edges hs r b (by omega)
  have h2 := countP_sorted e.edges hs r (b + 1) hb
  unfold InBin dig
  rw [List.getD_eq_getElem _ _ (by omega : b < e.edges.length), List.getD_eq_getElem _ _ hb, ← h1, ← not_lt, ← h2]
  constructor
  · rintro ⟨h, h'⟩; exact ⟨h, by omega, by omega⟩
  · rintro ⟨h, h', h''⟩; exact ⟨h, by omega⟩

omit [Field K] [IsStrictOrderedRing K] in
/-- The largest edge. -/
theorem le_foldl_max (l : List K) (a : K) : a ≤ l.foldl max a ∧ ∀ x ∈ l, x ≤ l.foldl max a := by
  induction l generalizing a with
  | nil => simp
  | cons x t ih =>
    obtain ⟨h1, h2⟩ := ih (max a x)
    refine ⟨(le_max_left a x).trans h1, ?_⟩
    intro y hy
    rcases List.mem_cons.mp hy with rfl | hy
    · exact (le_max_right a y).trans h1
    · exact h2 y hy

/-- The neighbours that a rank enumerates are the secondaries of the catalog within the largest edge, each once, in some order and in some
bunches. The completeness of the domain decomposition and the KD tree are behind this. -/
def Complete (e : Env K) (sec : List (Obj K)) (bunches : Obj K → List (List (Obj K))) (p : Obj K) : Prop :=
  (bunches p).flatten.Perm (sec.filter fun s => sep e p s ≤ e.edges.foldl max 0)

omit [IsStrictOrderedRing K] in
theorem binSum_complete (e : Env K) (hs : e.edges.Pairwise (· < ·)) (sec : List (Obj K)) (bunches : Obj K → List (List (Obj K)))
    (p : Obj K) (h : Complete e sec bunches p) (g : Obj K → K) (b : Nat) (hb : b + 1 < e.edges.length) :
    binSum e p g (bunches p).flatten b = ((sec.filter fun j => InBin e.edges b (sep e p j)).map g).sum := by
  have h1 : ((bunches p).flatten.filter fun s => sep e p s > 0 ∧ dig e (sep e p s) = b + 1).Perm
      (sec.filter fun j => InBin e.edges b (sep e p j)) := by
    refine (h.filter _).trans ?_
    rw [List.filter_filter]
    refine List.Perm.of_eq (List.filter_congr fun s _ => ?_)
    rw [Bool.eq_iff_iff]
    simp only [gt_iff_lt, Bool.and_eq_true, decide_eq_true_eq, dig_iff e hs b hb]
    refine ⟨fun h => h.1, fun h => ⟨h, ?_⟩⟩
    refine h.2.2.trans ?_
    rw [List.getD_eq_getElem _ _ hb]
    exact (le_foldl_max e.edges 0).2 _ (List.getElem_mem hb)
  exact (h1.map g).sum_eq

omit [LinearOrder K] [IsStrictOrderedRing K] in
theorem sum_comm' {α β : Type} (A : List α) (B : List β) (f : α → β → K) :
    (A.map fun a => (B.map fun b => f a b).sum).sum = (B.map fun b => (A.map fun a => f a b).sum).sum := by
  induction A with
  | nil => simp
  | cons a A ih => simp [ih, List.sum_map_add]

omit [IsStrictOrderedRing K] in
theorem primary_triangles (e : Env K) (hs : e.edges.Pairwise (· < ·)) (leg : Nat → Vec K → Vec K → K) (poles : List Nat)
    (hn : poles.Nodup) (sec : List (Obj K)) (bunches : Obj K → List (List (Obj K))) (p : Obj K) (hc : Complete e sec bunches p)
    (l : Nat) (hl : l ∈ poles)
    (hY : ∀ j ∈ sec, ∀ k ∈ sec, 0 < sep e p j → 0 < sep e p k → AdditionTheorem e leg l (dir e p j) (dir e p k))
    (b1 b2 : Nat) (h1 : b1 + 1 < e.edges.length) (h2 : b2 + 1 < e.edges.length) :
    e.fourPi * primary e (poles.flatMap fun l => (List.range (l + 1)).map fun m => (l, m)) bunches p l b1 b2 =
      (2 * l + 1) * triangles e (leg l) [p] sec b1 b2 := by
  rw [primary_eq e poles hn bunches p l b1 b2 hl]
  unfold triangles
  simp only [List.map_cons, List.map_nil, List.sum_cons, List.sum_nil, add_zero]
  have ht : ∀ m, term e p (bunches p).flatten l m b1 b2 =
      ((sec.filter fun j => InBin e.edges b1 (sep e p j)).map fun j => ((sec.filter fun k => InBin e.edges b2 (sep e p k)).map fun k =>
        j.w * k.w * (if m = 0 then (e.Y l m (dir e p j)).re * (e.Y l m (dir e p k)).re
          else 2 * ((e.Y l m (dir e p j)).re * (e.Y l m (dir e p k)).re + (e.Y l m (dir e p j)).im * (e.Y l m (dir e p k)).im))).sum).sum := by
    intro m
    unfold term
    dsimp only
    rw [binSum_complete e hs sec bunches p hc _ b1 h1, binSum_complete e hs sec bunches p hc _ b2 h2,
      binSum_complete e hs sec bunches p hc _ b1 h1, binSum_complete e hs sec bunches p hc _ b2 h2]
    rw [sum_mul_sum, sum_mul_sum]
    by_cases hm : m = 0
    · simp only [hm, if_true]
      congr 1; apply List.map_congr_left; intro j _
      congr 1; apply List.map_congr_left; intro k _
      ring
    · simp only [hm, if_false]
      rw [← List.sum_map_add, ← List.sum_map_mul_left]
      congr 1; apply List.map_congr_left; intro j _
      rw [← List.sum_map_add, ← List.sum_map_mul_left]
      congr 1; apply List.map_congr_left; intro k _
      ring
  simp only [ht]
  rw [sum_comm', ← List.sum_map_mul_left, ← List.sum_map_mul_left, ← List.sum_map_mul_left]
  congr 1; apply List.map_congr_left; intro j hj
  rw [sum_comm', ← List.sum_map_mul_left, ← List.sum_map_mul_left, ← List.sum_map_mul_left]
  congr 1; apply List.map_congr_left; intro k hk
  rw [List.sum_map_mul_left]
  obtain ⟨hj, hj'⟩ := List.mem_filter.mp hj
  obtain ⟨hk, hk'⟩ := List.mem_filter.mp hk
  have hj' : InBin e.edges b1 (sep e p j) := by simpa using hj'
  have hk' : InBin e.edges b2 (sep e p k) := by simpa using hk'
  have := hY j hj k hk hj'.1 hk'.1
  unfold AdditionTheorem at this
  linear_combination p.w * j.w * k.w * this

omit [IsStrictOrderedRing K] in
theorem triangles_cons (e : Env K) (leg : Vec K → Vec K → K) (p : Obj K) (ps sec : List (Obj K)) (b1 b2 : Nat) :
    triangles e leg (p :: ps) sec b1 b2 = triangles e leg [p] sec b1 b2 + triangles e leg ps sec b1 b2 := by
  simp [triangles]

omit [IsStrictOrderedRing K] in
theorem triangles_append (e : Env K) (leg : Vec K → Vec K → K) (ps qs sec : List (Obj K)) (b1 b2 : Nat) :
    triangles e leg (ps ++ qs) sec b1 b2 = triangles e leg ps sec b1 b2 + triangles e leg qs sec b1 b2 := by
  simp [triangles]

/-- The largest number of primaries of a rank. -/
def maxLoad (parts : List (Part K)) : Nat := (parts.map fun q => q.prim.length).foldl max 0

omit [IsStrictOrderedRing K] in
/-- **C80** (partial: with the number of primaries that the progress message needs, see `few_primaries`). The multipoles of the
three-point function, times `(4 pi)^2`, are `2 l + 1` times the sum over all triangles of a primary and two secondaries in the bins, of the
product of the weights and the Legendre polynomial of the angle between the two sides. Nothing depends on the ranks, the bunches or the order of
the enumeration. -/
theorem tpcf_partial (e : Env K) (hs : e.edges.Pairwise (· < ·)) (h4 : e.fourPi ≠ 0) (leg : Nat → Vec K → Vec K → K) (poles : List Nat)
    (hne : poles ≠ []) (hn : poles.Nodup) (sec : List (Obj K)) (parts : List (Part K))
    (hload : maxLoad parts = 0 ∨ 10 ≤ maxLoad parts)
    (hc : ∀ q ∈ parts, ∀ p ∈ q.prim, Complete e sec q.bunches p)
    (hY : ∀ l ∈ poles, ∀ q ∈ parts, ∀ p ∈ q.prim, ∀ j ∈ sec, ∀ k ∈ sec, 0 < sep e p j → 0 < sep e p k →
      AdditionTheorem e leg l (dir e p j) (dir e p k)) :
    ∃ res, run e poles parts = .ok res ∧ res.map (·.1) = poles ∧
      ∀ x ∈ res, ∀ b1 b2, b1 + 1 < e.edges.length → b2 + 1 < e.edges.length →
        e.fourPi ^ 2 * x.2 b1 b2 = (2 * x.1 + 1) * triangles e (leg x.1) (parts.flatMap (·.prim)) sec b1 b2 := by
  unfold run
  dsimp only
  rw [if_neg hne]
  have hl : ¬ ((parts.map fun q => q.prim.length).foldl max 0 > 0 ∧ (parts.map fun q => q.prim.length).foldl max 0 / 10 = 0) := by
    unfold maxLoad at hload; omega
  rw [if_neg hl, if_neg (by simpa using hn)]
  refine ⟨_, rfl, by rw [List.map_map]; exact List.map_id poles, ?_⟩
  intro x hx b1 b2 h1 h2
  obtain ⟨l, hl', rfl⟩ := List.mem_map.mp hx
  dsimp only
  have key : ∀ P : List (Part K), (∀ q ∈ P, q ∈ parts) →
      e.fourPi * (P.map fun q => (q.prim.map fun p => primary e (poles.flatMap fun l => (List.range (l + 1)).map fun m => (l, m))
        q.bunches p l b1 b2).sum).sum = (2 * l + 1) * triangles e (leg l) (P.flatMap (·.prim)) sec b1 b2 := by
    intro P hP
    induction P with
    | nil => simp [triangles]
    | cons q P ih =>
      have ih := ih fun r hr => hP r (List.mem_cons_of_mem _ hr)
      rw [List.map_cons, List.sum_cons, List.flatMap_cons, triangles_append, mul_add, mul_add, ih]
      congr 1
      have hq := hP q List.mem_cons_self
      have : ∀ ps : List (Obj K), (∀ p ∈ ps, p ∈ q.prim) → e.fourPi * (ps.map fun p => primary e (poles.flatMap fun l => (List.range (l + 1)).map
          fun m => (l, m)) q.bunches p l b1 b2).sum = (2 * l + 1) * triangles e (leg l) ps sec b1 b2 := by
        intro ps hps
        induction ps with
        | nil => simp [triangles]
        | cons p ps ih2 =>
          rw [triangles_cons, List.map_cons, List.sum_cons, mul_add, mul_add, ih2 fun r hr => hps r (List.mem_cons_of_mem _ hr)]
          congr 1
          have hp := hps p List.mem_cons_self
          exact primary_triangles e hs leg poles hn sec q.bunches p (hc q hq p hp) l hl' (hY l hl' q hq p hp) b1 b2 h1 h2
      exact this q.prim fun _ h => h
  have := key parts fun _ h => h
  rw [← this]
  field_simp

omit [IsStrictOrderedRing K] in
/-- The three-point function is symmetric in its two bins if the polynomial is symmetric in the directions. -/
theorem triangles_symm (e : Env K) (leg : Vec K → Vec K → K) (hleg : ∀ u v, leg u v = leg v u) (prim sec : List (Obj K)) (b1 b2 : Nat) :
    triangles e leg prim sec b1 b2 = triangles e leg prim sec b2 b1 := by
  unfold triangles
  congr 1; apply List.map_congr_left; intro p _
  rw [sum_comm']
  congr 1; apply List.map_congr_left; intro k _
  congr 1; apply List.map_congr_left; intro j _
  rw [hleg]; ring

omit [IsStrictOrderedRing K] in
/-- **C80**, the layout: two distributions of the same primaries, with any enumerations, give the same multipoles. -/
theorem layout_partial (e : Env K) (hs : e.edges.Pairwise (· < ·)) (h4 : e.fourPi ≠ 0) (leg : Nat → Vec K → Vec K → K) (poles : List Nat)
    (hne : poles ≠ []) (hn : poles.Nodup) (sec : List (Obj K)) (parts parts' : List (Part K))
    (hload : maxLoad parts = 0 ∨ 10 ≤ maxLoad parts) (hload' : maxLoad parts' = 0 ∨ 10 ≤ maxLoad parts')
    (hp : (parts.flatMap (·.prim)).Perm (parts'.flatMap (·.prim)))
    (hc : ∀ q ∈ parts, ∀ p ∈ q.prim, Complete e sec q.bunches p) (hc' : ∀ q ∈ parts', ∀ p ∈ q.prim, Complete e sec q.bunches p)
    (hY : ∀ l ∈ poles, ∀ q ∈ parts, ∀ p ∈ q.prim, ∀ j ∈ sec, ∀ k ∈ sec, 0 < sep e p j → 0 < sep e p k →
      AdditionTheorem e leg l (dir e p j) (dir e p k)) :
    ∃ res res' : Result K, run e poles parts = .ok res ∧ run e poles parts' = .ok res' ∧ ∀ i b1 b2 : Nat, b1 + 1 < e.edges.length → b2 + 1 < e.edges.length →
      (res[i]?.map fun x => (x.1, x.2 b1 b2)) = res'[i]?.map fun x => (x.1, x.2 b1 b2) := by
  have hY' : ∀ l ∈ poles, ∀ q ∈ parts', ∀ p ∈ q.prim, ∀ j ∈ sec, ∀ k ∈ sec, 0 < sep e p j → 0 < sep e p k →
      AdditionTheorem e leg l (dir e p j) (dir e p k) := by
    intro l hl q hq p hpq
    have : p ∈ parts.flatMap (·.prim) := hp.mem_iff.mpr (List.mem_flatMap.mpr ⟨q, hq, hpq⟩)
    obtain ⟨q', hq', hpq'⟩ := List.mem_flatMap.mp this
    exact hY l hl q' hq' p hpq'
  obtain ⟨res, r1, r2, r3⟩ := tpcf_partial e hs h4 leg poles hne hn sec parts hload hc hY
  obtain ⟨res', s1, s2, s3⟩ := tpcf_partial e hs h4 leg poles hne hn sec parts' hload' hc' hY'
  refine ⟨res, res', r1, s1, ?_⟩
  intro i b1 b2 h1 h2
  have hm : res[i]?.map (·.1) = res'[i]?.map (·.1) := by rw [← List.getElem?_map, ← List.getElem?_map, r2, s2]
  cases h : res[i]? with
  | none =>
    rw [h] at hm
    cases h' : res'[i]? with
    | none => rfl
    | some y => rw [h'] at hm; cases hm
  | some x =>
    rw [h] at hm
    cases h' : res'[i]? with
    | none => rw [h'] at hm; cases hm
    | some y =>
      rw [h'] at hm
      have hxy : x.1 = y.1 := by simpa using hm
      simp only [Option.map_some, Option.some.injEq, Prod.mk.injEq]
      refine ⟨hxy, ?_⟩
      have a := r3 x (List.mem_of_getElem? h) b1 b2 h1 h2
      have b := s3 y (List.mem_of_getElem? h') b1 b2 h1 h2
      have c : triangles e (leg x.1) (parts.flatMap (·.prim)) sec b1 b2 = triangles e (leg x.1) (parts'.flatMap (·.prim)) sec b1 b2 :=
        (hp.map _).sum_eq
      rw [c, hxy, ← b] at a
      exact mul_left_cancel₀ (pow_ne_zero 2 h4) a

/-! ## The separation in a periodic box -/

/-- The wrapped difference is the image of the difference in half the box, open on the left. -/
theorem wrapAxis_spec (L d : K) (h1 : -L < d) (h2 : d < L) :
    -(L / 2) < wrapAxis L d ∧ wrapAxis L d ≤ L / 2 ∧ ∃ n : Int, wrapAxis L d = d + n * L := by
  unfold wrapAxis
  dsimp only
  split_ifs with h3 h4 h4
  · exact ⟨by linarith, by linarith, 0, by push_cast; ring⟩
  · exact ⟨by linarith, by linarith, -1, by push_cast; ring⟩
  · exact ⟨by linarith, by linarith, 1, by push_cast; ring⟩
  · exact ⟨by linarith, by linarith, 0, by push_cast; ring⟩

/-- No other image is nearer. -/
theorem wrapAxis_nearest (L d : K) (h1 : -L < d) (h2 : d < L) (n : Int) : |wrapAxis L d| ≤ |d + n * L| := by
  have hL : 0 < L := by linarith
  obtain ⟨a, b, k, hk⟩ := wrapAxis_spec L d h1 h2
  have hd : d + n * L = wrapAxis L d + ((n - k : Int) : K) * L := by rw [hk]; push_cast; ring
  rw [hd]
  generalize wrapAxis L d = x at a b
  rcases lt_trichotomy (n - k) 0 with h | h | h
  · have : ((n - k : Int) : K) ≤ -1 := by exact_mod_cast Int.le_sub_one_of_lt h
    have h5 : ((n - k : Int) : K) * L ≤ -1 * L := mul_le_mul_of_nonneg_right this hL.le
    rw [abs_of_nonpos (a := x + _) (by linarith), abs_le]
    constructor <;> linarith
  · rw [h]; simp
  · have : (1 : K) ≤ ((n - k : Int) : K) := by exact_mod_cast h
    have h5 : 1 * L ≤ ((n - k : Int) : K) * L := mul_le_mul_of_nonneg_right this hL.le
    rw [abs_of_nonneg (a := x + _) (by linarith), abs_le]
    constructor <;> linarith

/-- The vector from the primary to the secondary: the plain difference, or in a periodic box the nearest image, along each axis. -/
def Separation (box : Option (Vec K)) (p s d : Vec K) : Prop :=
  match box with
  | none => d.x = s.x - p.x ∧ d.y = s.y - p.y ∧ d.z = s.z - p.z
  | some L =>
    (∃ n : Int, d.x = s.x - p.x + n * L.x) ∧ (∀ n : Int, |d.x| ≤ |s.x - p.x + n * L.x|) ∧
    (∃ n : Int, d.y = s.y - p.y + n * L.y) ∧ (∀ n : Int, |d.y| ≤ |s.y - p.y + n * L.y|) ∧
    (∃ n : Int, d.z = s.z - p.z + n * L.z) ∧ (∀ n : Int, |d.z| ≤ |s.z - p.z + n * L.z|)

/-- A position is in the box, if there is one. -/
def InBox (box : Option (Vec K)) (p : Vec K) : Prop :=
  ∀ L ∈ box, 0 ≤ p.x ∧ p.x < L.x ∧ 0 ≤ p.y ∧ p.y < L.y ∧ 0 ≤ p.z ∧ p.z < L.z

/-- **C80**, the geometry: `sep` is the length of the separation and `dir` is the separation divided by its length. -/
theorem geometry (e : Env K) (p s : Obj K) (hp : InBox e.box p.pos) (hs : InBox e.box s.pos) (h : 0 < sep e p s) :
    ∃ d, Separation e.box p.pos s.pos d ∧ sep e p s = e.len d ∧
      (dir e p s).x * e.len d = d.x ∧ (dir e p s).y * e.len d = d.y ∧ (dir e p s).z * e.len d = d.z := by
  refine ⟨dposOf e.box p s, ?_, rfl, ?_, ?_, ?_⟩
  · unfold Separation dposOf
    cases hb : e.box with
    | none => exact ⟨rfl, rfl, rfl⟩
    | some L =>
      obtain ⟨a1, a2, a3, a4, a5, a6⟩ := hp L hb
      obtain ⟨c1, c2, c3, c4, c5, c6⟩ := hs L hb
      dsimp only
      exact ⟨(wrapAxis_spec L.x _ (by linarith) (by linarith)).2.2, wrapAxis_nearest L.x _ (by linarith) (by linarith),
        (wrapAxis_spec L.y _ (by linarith) (by linarith)).2.2, wrapAxis_nearest L.y _ (by linarith) (by linarith),
        (wrapAxis_spec L.z _ (by linarith) (by linarith)).2.2, wrapAxis_nearest L.z _ (by linarith) (by linarith)⟩
  all_goals exact div_mul_cancel₀ _ h.ne'

end

/-! ## What raises -/

/-- **C80 fails** for fewer than ten primaries on the fullest rank: the progress message takes a remainder by zero. -/
theorem few_primaries (e : Env K) (poles : List Nat) (hne : poles ≠ []) (parts : List (Part K)) (h0 : 0 < maxLoad parts)
    (h : maxLoad parts < 10) : run e poles parts = .error .zeroDivision := by
  unfold run
  dsimp only
  rw [if_neg hne, if_pos]
  unfold maxLoad at h0 h
  exact ⟨h0, by omega⟩

/-- No multipoles, or one that appears twice, are refused. -/
theorem bad_poles (e : Env K) (parts : List (Part K)) :
    run e [] parts = .error .valueError ∧
    ∀ poles : List Nat, ¬ poles.Nodup → (maxLoad parts = 0 ∨ 10 ≤ maxLoad parts) → run e poles parts = .error .valueError := by
  refine ⟨by unfold run; simp, ?_⟩
  intro poles hn hl
  unfold run
  dsimp only
  have hne : poles ≠ [] := by rintro rfl; exact hn List.nodup_nil
  rw [if_neg hne, if_neg, if_pos hn]
  unfold maxLoad at hl
  omega

/-! ## A case -/

/-- Lengths are measured by the largest coordinate, which is rational; the only harmonic is the constant one. -/
def exEnv : Env Rat :=
  { len := fun v => max |v.x| (max |v.y| |v.z|), Y := fun _ _ _ => ⟨1 / 2, 0⟩, fourPi := 4, box := some ⟨10, 10, 10⟩, edges := [0, 1, 3] }

/-- Eleven objects on a line. -/
def exObjs : List (Obj Rat) := (List.range 11).map fun i => ⟨⟨(i : Rat) * (9 / 10), 0, 0⟩, (i : Rat) + 1⟩

/-- The neighbours in two bunches. -/
def exBunches (p : Obj Rat) : List (List (Obj Rat)) :=
  let n := exObjs.filter fun s => sep exEnv p s ≤ 3
  [n.take 2, n.drop 2]

def exParts : List (Part Rat) := [⟨exObjs.take 10, exBunches⟩, ⟨exObjs.drop 10, exBunches⟩]

theorem ex_complete (p : Obj Rat) : Complete exEnv exObjs exBunches p := by
  unfold Complete exBunches
  have : exEnv.edges.foldl max 0 = 3 := by decide +kernel
  rw [this]
  simp

theorem ex_addition (u v : Vec Rat) : AdditionTheorem exEnv (fun _ _ _ => 1) 0 u v := by
  unfold AdditionTheorem exEnv
  norm_num

omit [LinearOrder K] in
/-- The addition theorem of the dipole: the harmonics are `a z` and `b (x + i y)`, with the usual constants. -/
theorem dipole_addition (e : Env K) (a b : K) (h0 : ∀ v, e.Y 1 0 v = ⟨a * v.z, 0⟩) (h1 : ∀ v, e.Y 1 1 v = ⟨b * v.x, b * v.y⟩)
    (ha : e.fourPi * a ^ 2 = 3) (hb : e.fourPi * (2 * b ^ 2) = 3) (u v : Vec K) :
    AdditionTheorem e (fun _ u v => u.x * v.x + u.y * v.y + u.z * v.z) 1 u v := by
  unfold AdditionTheorem
  simp only [List.range_succ, List.range_zero, List.nil_append, List.map_append, List.map_cons, List.map_nil, List.sum_append,
    List.sum_cons, List.sum_nil, h0, h1, if_true, one_ne_zero, if_false, add_zero, zero_add]
  push_cast
  linear_combination u.z * v.z * ha + (u.x * v.x + u.y * v.y) * hb

/-- The hypotheses of `tpcf_partial` and `layout_partial` are met. -/
example : ∃ res, run exEnv [0] exParts = .ok res ∧ res.map (·.1) = [0] ∧
      ∀ x ∈ res, ∀ b1 b2, b1 + 1 < exEnv.edges.length → b2 + 1 < exEnv.edges.length →
        exEnv.fourPi ^ 2 * x.2 b1 b2 = (2 * x.1 + 1) * triangles exEnv (fun _ _ => 1) (exParts.flatMap (·.prim)) exObjs b1 b2 :=
  tpcf_partial exEnv (by decide +kernel) (by decide +kernel) (fun _ _ _ => 1) [0] (by decide) (by decide) exObjs exParts
    (Or.inr (by decide +kernel)) (by
      intro q hq p _
      have : q.bunches = exBunches := by
        simp only [exParts, List.mem_cons, List.not_mem_nil, or_false] at hq
        rcases hq with rfl | rfl <;> rfl
      rw [this]; exact ex_complete p) (by
      intro l hl q _ p _ j _ k _ _ _
      rw [List.mem_singleton.mp hl]
      exact ex_addition _ _)

/-- The sum is not trivial: weights over the nearest neighbours, also across the border of the box. -/
example : triangles exEnv (fun _ _ => 1) exObjs exObjs 0 1 = 21384 ∧ (triangles exEnv (fun _ _ => 1) (exObjs.take 1) exObjs 0 0 = 169) := by
  decide +kernel

/-- The hypotheses of `geometry` are met, with a separation across the border. -/
example : InBox exEnv.box (⟨0, 0, 0⟩ : Vec Rat) ∧ InBox exEnv.box (⟨9, 0, 0⟩ : Vec Rat) ∧
    sep exEnv ⟨⟨0, 0, 0⟩, 1⟩ ⟨⟨9, 0, 0⟩, 1⟩ = 1 := by
  refine ⟨?_, ?_, by decide +kernel⟩ <;>
  · intro L hL
    cases hL
    norm_num

/-- The hypotheses of `few_primaries` are met. -/
example : 0 < maxLoad [(⟨exObjs.take 5, exBunches⟩ : Part Rat)] ∧ maxLoad [(⟨exObjs.take 5, exBunches⟩ : Part Rat)] < 10 := by
  decide +kernel

end NBK.Tpcf
