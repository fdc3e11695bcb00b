import Verif.TpcfObj.Model
import Verif.SurvPairs.Props
import Mathlib.Algebra.Order.Floor.Ring
import Mathlib.Tactic.Linarith
import Mathlib.Tactic.FieldSimp
import Mathlib.Tactic.Ring
import Mathlib.Tactic.Positivity
import Mathlib.Tactic.Push

set_option linter.unusedSimpArgs false

/-! Lemmas on grids, partitions and enumerations. -/
noncomputable section
namespace NBK.TpcfObj
open Tpcf (Vec Obj Result)

/-! ### Cells -/

theorem wrap_range {L : ℝ} (hL : 0 < L) (x : ℝ) : 0 ≤ wrap L x ∧ wrap L x < L := by
  unfold wrap
  have h1 := Int.floor_le (x / L)
  have h2 := Int.lt_floor_add_one (x / L)
  rw [le_div_iff₀ hL] at h1
  rw [div_lt_iff₀ hL] at h2
  constructor <;> nlinarith

theorem cell_spec {L : ℝ} (hL : 0 < L) {n : Nat} (hn : 0 < n) (x : ℝ) :
    cellOf n L x < n ∧ L * (cellOf n L x : ℝ) / n ≤ wrap L x ∧ wrap L x ≤ L * ((cellOf n L x : ℝ) + 1) / n := by
  obtain ⟨h0, h1⟩ := wrap_range hL x
  have hn' : (0 : ℝ) < n := by exact_mod_cast hn
  have hpos : 0 ≤ wrap L x * n / L := by positivity
  have hf : 0 ≤ ⌊wrap L x * n / L⌋ := Int.floor_nonneg.mpr hpos
  have hc : ((cellOf n L x : Nat) : ℝ) = (⌊wrap L x * n / L⌋ : ℝ) := by
    unfold cellOf
    exact_mod_cast congrArg (fun z : ℤ => (z : ℝ)) (Int.toNat_of_nonneg hf)
  have l1 := Int.floor_le (wrap L x * n / L)
  have l2 := Int.lt_floor_add_one (wrap L x * n / L)
  rw [← hc] at l1 l2
  refine ⟨?_, ?_, ?_⟩
  · have : (cellOf n L x : ℝ) < n := by
      refine lt_of_le_of_lt l1 ?_
      rw [div_lt_iff₀ hL, mul_comm (n : ℝ) L]
      exact mul_lt_mul_of_pos_right h1 hn'
    exact_mod_cast this
  · rw [div_le_iff₀ hn']
    rw [le_div_iff₀ hL] at l1
    linarith
  · rw [le_div_iff₀ hn']
    rw [div_lt_iff₀ hL] at l2
    linarith

theorem near_of {L : ℝ} (hL : 0 < L) {n : Nat} (hn : 0 < n) {a b s : ℝ} (m : ℤ) (h : |b - a + m * L| ≤ s) :
    near n L s (cellOf n L a) b := by
  obtain ⟨_, h1, h2⟩ := cell_spec hL hn a
  obtain ⟨h3, h4⟩ := abs_le.mp h
  refine ⟨m - ⌊a / L⌋, ?_, ?_⟩
  · unfold wrap at h1; push_cast; linarith
  · unfold wrap at h2; push_cast; linarith

theorem wrapAxis_image (L d : ℝ) : ∃ m : ℤ, Tpcf.wrapAxis L d = d + m * L := by
  unfold Tpcf.wrapAxis
  dsimp only
  by_cases h : d > L * (1 / 2)
  · rw [if_pos h]
    by_cases h' : d - L ≤ -L * (1 / 2)
    · rw [if_pos h']; exact ⟨0, by push_cast; ring⟩
    · rw [if_neg h']; exact ⟨-1, by push_cast; ring⟩
  · rw [if_neg h]
    by_cases h' : d ≤ -L * (1 / 2)
    · rw [if_pos h']; exact ⟨1, by push_cast; ring⟩
    · rw [if_neg h']; exact ⟨0, by push_cast; ring⟩

theorem comp_le {x y z s : ℝ} (h : Real.sqrt (x ^ 2 + y ^ 2 + z ^ 2) ≤ s) : |x| ≤ s ∧ |y| ≤ s ∧ |z| ≤ s := by
  have hx : |x| ≤ Real.sqrt (x ^ 2 + y ^ 2 + z ^ 2) := Real.abs_le_sqrt (by nlinarith [sq_nonneg y, sq_nonneg z])
  have hy : |y| ≤ Real.sqrt (x ^ 2 + y ^ 2 + z ^ 2) := Real.abs_le_sqrt (by nlinarith [sq_nonneg x, sq_nonneg z])
  have hz : |z| ≤ Real.sqrt (x ^ 2 + y ^ 2 + z ^ 2) := Real.abs_le_sqrt (by nlinarith [sq_nonneg x, sq_nonneg y])
  exact ⟨hx.trans h, hy.trans h, hz.trans h⟩

/-- The rank of a primary gets all secondaries within `s` of it, with periodic separations or without. -/
theorem ghost_of {L : Vec ℝ} (hx : 0 < L.x) (hy : 0 < L.y) (hz : 0 < L.z) {np : Nat × Nat × Nat} (h1 : 0 < np.1) (h2 : 0 < np.2.1)
    (h3 : 0 < np.2.2) (per : Bool) (edges : List ℝ) {a b : Obj ℝ} {s : ℝ}
    (h : Tpcf.sep (Ylm.tpcfEnv (if per then some L else none) edges) a b ≤ s) : ghost L np s (owner L np a.pos) b.pos := by
  refine ⟨_, _, _, (cell_spec hx h1 a.pos.x).1, (cell_spec hy h2 a.pos.y).1, (cell_spec hz h3 a.pos.z).1, rfl, ?_⟩
  cases per with
  | true =>
    obtain ⟨c1, c2, c3⟩ := comp_le h
    obtain ⟨m1, e1⟩ := wrapAxis_image L.x (b.pos.x - a.pos.x)
    obtain ⟨m2, e2⟩ := wrapAxis_image L.y (b.pos.y - a.pos.y)
    obtain ⟨m3, e3⟩ := wrapAxis_image L.z (b.pos.z - a.pos.z)
    exact ⟨near_of hx h1 m1 (e1 ▸ c1), near_of hy h2 m2 (e2 ▸ c2), near_of hz h3 m3 (e3 ▸ c3)⟩
  | false =>
    obtain ⟨c1, c2, c3⟩ := comp_le h
    refine ⟨near_of hx h1 0 ?_, near_of hy h2 0 ?_, near_of hz h3 0 ?_⟩
    · simpa [Tpcf.dposOf, Ylm.tpcfEnv] using c1
    · simpa [Tpcf.dposOf, Ylm.tpcfEnv] using c2
    · simpa [Tpcf.dposOf, Ylm.tpcfEnv] using c3

theorem rank_lt {np : Nat × Nat × Nat} {i j k : Nat} (hi : i < np.1) (hj : j < np.2.1) (hk : k < np.2.2) :
    rankOf np i j k < np.1 * np.2.1 * np.2.2 := by
  unfold rankOf
  have h1 : i * np.2.1 + j + 1 ≤ np.1 * np.2.1 := by
    have := Nat.mul_le_mul_right np.2.1 (Nat.succ_le_of_lt hi)
    rw [Nat.succ_mul] at this
    omega
  have h2 := Nat.mul_le_mul_right np.2.2 h1
  rw [Nat.add_mul, Nat.one_mul] at h2
  omega

/-! ### Partitions -/

theorem partition_perm {α : Type} (f : α → Nat) (P : Nat) (l : List α) (h : ∀ o ∈ l, f o < P) :
    ((List.range P).flatMap fun r => l.filter fun o => f o = r).Perm l := by
  induction l with
  | nil => simp
  | cons a l ih =>
    have ih := ih fun o ho => h o (by simp [ho])
    have ha := h a (by simp)
    refine List.Perm.trans ?_ (ih.cons a)
    have key : ∀ Q : Nat, ((List.range Q).flatMap fun r => (a :: l).filter fun o => f o = r).Perm
        ((if f a < Q then [a] else []) ++ (List.range Q).flatMap fun r => l.filter fun o => f o = r) := by
      intro Q
      induction Q with
      | zero => simp
      | succ Q ihQ =>
        rw [List.range_succ, List.flatMap_append, List.flatMap_append]
        simp only [List.flatMap_cons, List.flatMap_nil, List.append_nil]
        by_cases hq : f a = Q
        · have e1 : (if f a < Q then [a] else []) = [] := if_neg (by omega)
          have e2 : (if f a < Q + 1 then [a] else []) = [a] := if_pos (by omega)
          rw [e1] at ihQ
          rw [e2, List.filter_cons_of_pos (by simpa using hq)]
          refine (ihQ.append_right _).trans ?_
          simp only [List.nil_append, List.singleton_append]
          exact List.perm_middle
        · have e1 : (if f a < Q + 1 then [a] else []) = (if f a < Q then [a] else []) := by
            by_cases h' : f a < Q
            · rw [if_pos h', if_pos (by omega)]
            · rw [if_neg h', if_neg (by omega)]
          rw [e1, List.filter_cons_of_neg (by simpa using hq)]
          refine (ihQ.append_right _).trans ?_
          rw [List.append_assoc]
    have := key P
    rw [if_pos ha] at this
    simpa using this

theorem triangles_perm (e : Tpcf.Env ℝ) (leg : Vec ℝ → Vec ℝ → ℝ) {p q : List (Obj ℝ)} (h : p.Perm q) (sec : List (Obj ℝ)) (b1 b2 : Nat) :
    Tpcf.triangles e leg p sec b1 b2 = Tpcf.triangles e leg q sec b1 b2 := by
  unfold Tpcf.triangles
  exact (h.map _).sum_eq

theorem maxOf_eq {edges : List ℝ} (hne : edges ≠ []) (h : ∀ e ∈ edges, 0 ≤ e) : SurvPairs.maxOf edges = edges.foldl max 0 := by
  cases edges with
  | nil => exact absurd rfl hne
  | cons x l => simp only [SurvPairs.maxOf, List.foldl_cons]; rw [max_eq_right (h x (by simp))]

/-- The contract of kdcount: every neighbour up to `rmax` is in exactly one bunch, for objects in the box. -/
def KdOk (enum : Enum) : Prop :=
  ∀ (box : Option (Vec ℝ)) (edges : List ℝ) (bunch : Nat) (rmax : ℝ) (sec : List (Obj ℝ)) (p : Obj ℝ), 0 < bunch → Tpcf.InBox box p.pos →
    (∀ s ∈ sec, Tpcf.InBox box s.pos) →
    (enum box bunch rmax sec p).flatten.Perm (sec.filter fun s => Tpcf.sep (Ylm.tpcfEnv box edges) p s ≤ rmax)

theorem foldl_max_le (l : List Nat) (a b : Nat) : l.foldl max a ≤ b ↔ a ≤ b ∧ ∀ x ∈ l, x ≤ b := by
  induction l generalizing a with
  | nil => simp
  | cons x l ih => rw [List.foldl_cons, ih]; simp [and_assoc]

/-- The parts of the ranks. -/
def partsOf (all : List (Obj ℝ)) (P : Nat) (f : Obj ℝ → Nat) (near : Nat → Obj ℝ → Bool) (c : Bool) :
    List (List (Obj ℝ) × List (Obj ℝ)) :=
  (List.range P).map fun r => (all.filter fun o => f o = r, if c then all else all.filter (near r))

/-- The multipoles of decomposed data. -/
theorem runOn_spec (enum : Enum) (hk : KdOk enum) (box : Option (Vec ℝ)) (bunch : Nat) (hb : 0 < bunch) (poles : List Nat) (hp : poles ≠ [])
    (hpn : poles.Nodup) (edges : List ℝ) (hs : edges.Pairwise (· < ·)) (hne : edges ≠ []) (h0 : ∀ e ∈ edges, 0 ≤ e)
    (all : List (Obj ℝ)) (P : Nat) (f : Obj ℝ → Nat) (near : Nat → Obj ℝ → Bool) (c : Bool) (hf : ∀ o ∈ all, f o < P)
    (hbox : ∀ o ∈ all, Tpcf.InBox box o.pos)
    (hnear : ∀ a ∈ all, ∀ b ∈ all, Tpcf.sep (Ylm.tpcfEnv box edges) a b ≤ SurvPairs.maxOf edges → near (f a) b = true)
    (hload : all = [] ∨ ∃ r, r < P ∧ 10 ≤ (all.filter fun o => f o = r).length) :
    ∃ res, runOn enum box bunch poles edges (partsOf all P f near c) = .ok res ∧ res.map (·.1) = poles ∧
      ∀ x ∈ res, ∀ b1 b2, b1 + 1 < edges.length → b2 + 1 < edges.length →
        (4 * Real.pi) ^ 2 * x.2 b1 b2 = (2 * x.1 + 1) *
          Tpcf.triangles (Ylm.tpcfEnv box edges) (fun u v => (Ylm.legendre x.1).eval (u.x * v.x + u.y * v.y + u.z * v.z))
            all all b1 b2 := by
  let parts : List (Tpcf.Part ℝ) := (partsOf all P f near c).map fun q => ⟨q.1, enum box bunch (SurvPairs.maxOf edges) q.2⟩
  have hmem : ∀ q ∈ parts, ∃ r, r < P ∧ q = ⟨all.filter fun o => f o = r,
      enum box bunch (SurvPairs.maxOf edges) (if c then all else all.filter (near r))⟩ := by
    intro q hq
    simp only [parts, partsOf, List.map_map, List.mem_map, List.mem_range, Function.comp_apply] at hq
    obtain ⟨r, hr, e⟩ := hq
    exact ⟨r, hr, e.symm⟩
  have hl : Tpcf.maxLoad parts = 0 ∨ 10 ≤ Tpcf.maxLoad parts := by
    rcases hload with h | ⟨r, hr, h⟩
    · left
      have : Tpcf.maxLoad parts ≤ 0 := by
        refine (foldl_max_le _ _ _).mpr ⟨le_refl _, ?_⟩
        intro x hx
        obtain ⟨q, hq, rfl⟩ := List.mem_map.mp hx
        obtain ⟨r, _, rfl⟩ := hmem q hq
        simp [h]
      omega
    · right
      refine h.trans (((foldl_max_le _ _ _).mp (le_refl (Tpcf.maxLoad parts))).2 _ ?_)
      refine List.mem_map.mpr ⟨⟨all.filter fun o => f o = r,
        enum box bunch (SurvPairs.maxOf edges) (if c then all else all.filter (near r))⟩, ?_, rfl⟩
      simp only [parts, partsOf, List.map_map, List.mem_map, List.mem_range, Function.comp_apply]
      exact ⟨r, hr, rfl⟩
  have hc : ∀ q ∈ parts, ∀ p ∈ q.prim, Tpcf.Complete (Ylm.tpcfEnv box edges) all q.bunches p := by
    intro q hq p hpq
    obtain ⟨r, _, rfl⟩ := hmem q hq
    obtain ⟨hpa, hpr⟩ := List.mem_filter.mp hpq
    have hpr : f p = r := by simpa using hpr
    unfold Tpcf.Complete
    have e0 : (Ylm.tpcfEnv box edges).edges.foldl max 0 = SurvPairs.maxOf edges := (maxOf_eq hne h0).symm
    rw [e0]
    cases c with
    | true => exact hk box edges bunch _ all p hb (hbox p hpa) hbox
    | false =>
      refine (hk box edges bunch _ (all.filter (near r)) p hb (hbox p hpa) fun s hs => hbox s (List.mem_filter.mp hs).1).trans ?_
      rw [List.filter_filter]
      refine List.Perm.of_eq (List.filter_congr fun s hsa => ?_)
      by_cases hsep : Tpcf.sep (Ylm.tpcfEnv box edges) p s ≤ SurvPairs.maxOf edges
      · have := hnear p hpa s hsa hsep
        rw [hpr] at this
        simp [hsep, this]
      · simp [hsep]
  obtain ⟨res, e1, e2, e3⟩ := Ylm.tpcf_legendre box edges hs poles hp hpn all parts hl hc
  have hprim : (parts.flatMap (·.prim)).Perm all := by
    have : parts.flatMap (·.prim) = (List.range P).flatMap fun r => all.filter fun o => f o = r := by
      simp only [parts, partsOf, List.flatMap_def, List.map_map, Function.comp_def]
    rw [this]
    exact partition_perm f P all hf
  refine ⟨res, ?_, e2, ?_⟩
  · unfold runOn
    rw [show ((partsOf all P f near c).map fun q => (⟨q.1, enum box bunch (SurvPairs.maxOf edges) q.2⟩ : Tpcf.Part ℝ)) = parts from rfl, e1]
  · intro x hx b1 b2 h1 h2
    rw [e3 x hx b1 b2 h1 h2, triangles_perm _ _ hprim]

/-- With ten objects for every rank, some rank has ten. -/
theorem pigeon {α : Type} (f : α → Nat) (P : Nat) (l : List α) (hf : ∀ o ∈ l, f o < P) (h : 9 * P < l.length) :
    ∃ r, r < P ∧ 10 ≤ (l.filter fun o => f o = r).length := by
  by_contra hc
  push Not at hc
  have hlen := (partition_perm f P l hf).length_eq
  have : ∀ Q, Q ≤ P → ((List.range Q).flatMap fun r => l.filter fun o => f o = r).length ≤ 9 * Q := by
    intro Q hQ
    induction Q with
    | zero => simp
    | succ Q ih =>
      rw [List.range_succ, List.flatMap_append]
      simp only [List.flatMap_cons, List.flatMap_nil, List.append_nil, List.length_append]
      have := ih (by omega)
      have := hc Q (by omega)
      omega
  have := this P (le_refl P)
  omega

end NBK.TpcfObj
