import Verif.CgmObj.ObjProps
import Mathlib.Data.List.Perm.Basic
import Mathlib.Tactic.LinearCombination

/-! C146: the groups of two catalogs of the same objects: layouts, translations, rotations, axes and units. -/
set_option linter.unusedSimpArgs false
namespace NBK.CgmObj
open NBK

/-! ### The groups follow from the ranking and the cylinders -/

theorem range_carried (π : Nat ≃ Nat) {n n' : Nat} (hlt : ∀ p, π p < n' ↔ p < n) : (List.range n').Perm ((List.range n).map π) := by
  rw [List.perm_ext_iff_of_nodup List.nodup_range (List.nodup_range.map π.injective)]
  intro q
  simp only [List.mem_range, List.mem_map]
  constructor
  · intro h
    refine ⟨π.symm q, ?_, π.apply_symm_apply q⟩
    rw [← hlt, π.apply_symm_apply]
    exact h
  · rintro ⟨p, hp, rfl⟩
    exact (hlt p).mpr hp

theorem count_carried (π : Nat ≃ Nat) {n n' : Nat} (hlt : ∀ p, π p < n' ↔ p < n) (f f' : Nat → Bool) (hf : ∀ j < n, f' (π j) = f j) :
    ((List.range n').filter f').length = ((List.range n).filter f).length := by
  rw [((range_carried π hlt).filter f').length_eq, List.filter_map, List.length_map]
  congr 1
  apply List.filter_congr
  intro j hj
  exact hf j (List.mem_range.mp hj)

section
variable {a a' : Attrs} {s s' : Source} {prio prio' host host' : Nat → Nat} {central central' : Nat → Bool} {rows rows' : List Cgm.Row} {π : Nat ≃ Nat}

theorem central_carried (G : Grouped a s prio central host rows) (G' : Grouped a' s' prio' central' host' rows')
    (hlt : ∀ p, π p < s'.all.length ↔ p < s.all.length)
    (hord : ∀ i < s.all.length, ∀ j < s.all.length, prio' (π i) < prio' (π j) ↔ prio i < prio j)
    (hcyl : ∀ i < s.all.length, ∀ j < s.all.length, InCylinder a'.los a'.used a'.rperp a'.rpar (s'.posOf (π i)) (s'.posOf (π j)) ↔
      InCylinder a.los a.used a.rperp a.rpar (s.posOf i) (s.posOf j)) : ∀ (m i : Nat), i < s.all.length → s.all.length - prio i = m → central' (π i) = central i := by
  intro m
  induction m using Nat.strong_induction_on with
  | _ m ih =>
    intro i hi hm
    rw [Bool.eq_iff_iff, G'.centrals _ ((hlt i).mpr hi), G.centrals i hi]
    have step : ∀ j < s.all.length, prio i < prio j → central' (π j) = central j := by
      intro j hj hij
      refine ih (s.all.length - prio j) ?_ j hj rfl
      have := G.bound j hj
      omega
    constructor
    · intro h j hj hij hc
      rw [← step j hj hij]
      exact h (π j) ((hlt j).mpr hj) ((hord i hi j hj).mpr hij) ((hcyl i hi j hj).mpr hc)
    · intro h q hq hiq hc
      obtain ⟨j, rfl⟩ := π.surjective q
      have hj := (hlt j).mp hq
      have hij := (hord i hi j hj).mp hiq
      rw [step j hj hij]
      exact h j hj hij ((hcyl i hi j hj).mp hc)

theorem rows_carried (G : Grouped a s prio central host rows) (G' : Grouped a' s' prio' central' host' rows')
    (hlt : ∀ p, π p < s'.all.length ↔ p < s.all.length)
    (hord : ∀ i < s.all.length, ∀ j < s.all.length, prio' (π i) < prio' (π j) ↔ prio i < prio j)
    (hcyl : ∀ i < s.all.length, ∀ j < s.all.length, InCylinder a'.los a'.used a'.rperp a'.rpar (s'.posOf (π i)) (s'.posOf (π j)) ↔
      InCylinder a.los a.used a.rperp a.rpar (s.posOf i) (s.posOf j)) : ∀ i < s.all.length, rows'[π i]? = rows[i]? := by
  have hc : ∀ i < s.all.length, central' (π i) = central i := fun i hi => central_carried G G' hlt hord hcyl _ i hi rfl
  have hh : ∀ i < s.all.length, central i = false → host' (π i) = π (host i) := by
    intro i hi h0
    have h0' : central' (π i) = false := by rw [hc i hi, h0]
    obtain ⟨b1, b2, b3, b4, b5⟩ := G.hosts i hi h0
    obtain ⟨d1, d2, d3, d4, d5⟩ := G'.hosts (π i) ((hlt i).mpr hi) h0'
    obtain ⟨j, hj⟩ := π.surjective (host' (π i))
    rw [← hj] at d1 d2 d3 d4 d5 ⊢
    have hjn := (hlt j).mp d1
    have e1 := b5 j hjn (by rw [← hc j hjn]; exact d2) ((hcyl i hi j hjn).mp d3)
    have e2 := d5 (π (host i)) ((hlt _).mpr b1) (by rw [hc _ b1]; exact b2) ((hcyl i hi _ b1).mpr b3)
    have e3 : ¬ prio j < prio (host i) := by
      rw [← hord j hjn _ b1]
      omega
    rw [G.inj j hjn (host i) b1 (by omega)]
  intro i hi
  cases h0 : central i with
  | true =>
    rw [G.central_row i hi h0, G'.central_row (π i) ((hlt i).mpr hi) (by rw [hc i hi, h0])]
    rw [count_carried π hlt (fun j => decide (prio i < prio j) && central j), count_carried π hlt (fun j => !central j && decide (host j = i))]
    · intro j hj
      rw [hc j hj]
      cases hcj : central j with
      | true => rfl
      | false => rw [hh j hj hcj]; simp only [EmbeddingLike.apply_eq_iff_eq]
    · intro j hj
      rw [hc j hj]
      congr 1
      exact decide_eq_decide.mpr (hord i hi j hj)
  | false =>
    obtain ⟨b1, _⟩ := G.hosts i hi h0
    rw [G.satellite_row i hi h0, G'.satellite_row (π i) ((hlt i).mpr hi) (by rw [hc i hi, h0]), hh i hi h0]
    rw [count_carried π hlt (fun j => decide (prio (host i) < prio j) && central j)]
    intro j hj
    rw [hc j hj]
    congr 1
    exact decide_eq_decide.mpr (hord _ b1 j hj)

end

/-! ### Calls -/

/-- A call of `CylindricalGroups`, and the machine it runs on. -/
structure Call where
  e : Env
  s : Source
  g : Args

/-- The call is accepted with the attributes `a`, and the machine does what is expected from it. -/
structure Call.Fits (c : Call) (a : Attrs) : Prop where
  accepted : Accepted c.s c.g a
  world : World c.e c.s a
  pos : "Position" ∈ c.s.columns
  nodup : a.rankby.Nodup
  keys : ∀ k ∈ a.rankby, k ∈ c.s.columns ∧ c.s.dtype k ≠ .other ∧ k ≠ "origind"
  signs : ∀ k ∈ a.rankby, c.s.dtype k ≠ .int → ∀ x ∈ c.s.all, (x.row k).neg = false
  ranks : c.s.ranks ≠ []
  rank : [] ∉ c.s.ranks
  box : ∀ L, a.used = some L → ∀ i, ∀ x ∈ c.s.all, 0 ≤ x.pos i ∧ x.pos i < L i
  self : a.los = none → ∀ x ∈ c.s.all, dot x.pos x.pos ≠ 0
  hard : "origind" ∉ c.s.hard

/-- The objects of the second call are those of the first after the change `f` of their positions, in the order `π`; ranks play no role. -/
def Moved (π : Nat ≃ Nat) (f : Vec → Vec) (c c' : Call) : Prop := ∀ p, c'.s.all[π p]? = (c.s.all[p]?).map fun x => { x with pos := f x.pos }

/-- No two objects have the same rank; if there is no column to rank by, the order of the objects is the same. -/
def Ranked (π : Nat ≃ Nat) (c : Call) (rankby : List String) : Prop :=
  (∀ (i j : Nat) (x y : Part), c.s.all[i]? = some x → c.s.all[j]? = some y → Sort.lexLE (fun a b => a.val < b.val) rankby x.row y.row →
    Sort.lexLE (fun a b => a.val < b.val) rankby y.row x.row → i = j) ∨
  (rankby = [] ∧ ∀ i < c.s.all.length, ∀ j < c.s.all.length, π i < π j ↔ i < j)

/-- The second call gives each object the same row. -/
def SameRows (π : Nat ≃ Nat) (c c' : Call) : Prop :=
  ∃ o o' t t', new c.e c.s c.g = (.ok o, t) ∧ new c'.e c'.s c'.g = (.ok o', t') ∧ o.groups.flatten.length = c.s.all.length ∧
    ∀ i < c.s.all.length, o'.groups.flatten[π i]? = o.groups.flatten[i]?

section
variable {c c' : Call} {a a' : Attrs} {π : Nat ≃ Nat} {f : Vec → Vec}

theorem Moved.lt (hm : Moved π f c c') (p : Nat) : π p < c'.s.all.length ↔ p < c.s.all.length := by
  have h := congrArg Option.isSome (hm p)
  rw [Option.isSome_map] at h
  have e : ∀ (l : List Part) (i : Nat), l[i]?.isSome = true ↔ i < l.length := fun l i => by simp
  rw [← e, ← e, h]

theorem Moved.posOf (hm : Moved π f c c') {p : Nat} (hp : p < c.s.all.length) : c'.s.posOf (π p) = f (c.s.posOf p) := by
  unfold Source.posOf
  rw [hm p, List.getElem?_eq_getElem hp]
  rfl

/-- **C146** Two calls with the same cylinders: same centrals, same groups, same numbers of satellites, same numbers of the groups, for each object. -/
theorem groups_same (h : c.Fits a) (h' : c'.Fits a') (hm : Moved π f c c') (hk : a'.rankby = a.rankby) (hr : Ranked π c a.rankby)
    (hcyl : ∀ p q, InCylinder a'.los a'.used a'.rperp a'.rpar (f p) (f q) ↔ InCylinder a.los a.used a.rperp a.rpar p q) : SameRows π c c' := by
  obtain ⟨o, t, prio, central, host, e, _, G, hl, _⟩ := groups_partial c.e c.s c.g a h.accepted h.world h.pos h.nodup h.keys h.signs h.ranks h.rank h.box h.self h.hard
  obtain ⟨o', t', prio', central', host', e', _, G', _⟩ := groups_partial c'.e c'.s c'.g a' h'.accepted h'.world h'.pos h'.nodup h'.keys h'.signs h'.ranks h'.rank
    h'.box h'.self h'.hard
  refine ⟨o, o', t, t', e, e', ?_, rows_carried G G' hm.lt ?_ ?_⟩
  · rw [List.length_flatten, hl, Source.all, List.length_flatten]
  · intro i hi j hj
    have hgi := List.getElem?_eq_getElem hi
    have hgj := List.getElem?_eq_getElem hj
    rcases hr with hr | ⟨hr, hord⟩
    · have hgi' := hm i
      have hgj' := hm j
      rw [hgi, Option.map_some] at hgi'
      rw [hgj, Option.map_some] at hgj'
      have key : ∀ {P Q : Prop} {x y x' y' : Nat}, (x < y → P) → (y < x → Q) → (x' < y' → P) → (y' < x' → Q) → ¬ (P ∧ Q) → x ≠ y → x' ≠ y' → (x' < y' ↔ x < y) := by
        intro P Q x y x' y' h1 h2 h3 h4 h5 h6 h7
        constructor
        · intro g
          rcases Nat.lt_or_gt_of_ne h6 with k | k
          · exact k
          · exact absurd ⟨h3 g, h2 k⟩ h5
        · intro g
          rcases Nat.lt_or_gt_of_ne h7 with k | k
          · exact k
          · exact absurd ⟨h1 g, h4 k⟩ h5
      by_cases hij : i = j
      · subst hij
        simp
      · refine key (G.ranked i j _ _ hgi hgj) (G.ranked j i _ _ hgj hgi) (fun g => ?_) (fun g => ?_) (fun g => hij (hr i j _ _ hgi hgj g.1 g.2)) (fun g => hij (G.inj i hi j hj g))
          (fun g => hij (π.injective (G'.inj _ ((hm.lt i).mpr hi) _ ((hm.lt j).mpr hj) g)))
        · have := G'.ranked (π i) (π j) _ _ hgi' hgj' g
          rw [hk] at this
          exact this
        · have := G'.ranked (π j) (π i) _ _ hgj' hgi' g
          rw [hk] at this
          exact this
    · rw [G.order hr i hi, G.order hr j hj, G'.order (hk.trans hr) _ ((hm.lt i).mpr hi), G'.order (hk.trans hr) _ ((hm.lt j).mpr hj)]
      exact hord i hi j hj
  · intro i hi j hj
    rw [hm.posOf hi, hm.posOf hj]
    exact hcyl _ _

/-- **C146** Ranks and order: the same objects on any ranks, in any order if no two have the same rank, get the same rows. -/
theorem groups_layout (h : c.Fits a) (h' : c'.Fits a) (hm : Moved π id c c') (hr : Ranked π c a.rankby) : SameRows π c c' :=
  groups_same h h' hm rfl hr fun _ _ => Iff.rfl

/-- **C146** Translations, for a fixed line of sight, with periods and without. -/
theorem groups_shift (n : Vec) (hn : a.los = some n) (t : Vec) (h : c.Fits a) (h' : c'.Fits a) (hm : Moved π (fun x i => x i + t i) c c')
    (hr : Ranked π c a.rankby) : SameRows π c c' := by
  refine groups_same h h' hm rfl hr fun p q => ?_
  unfold InCylinder Image
  rw [hn]
  simp only [add_sub_add_right_eq_sub, reduceCtorEq, false_implies, and_true]

/-- **C146** Translations of a periodic box, with a fixed line of sight: each object is moved and brought back into the box by periods of its own. -/
theorem groups_wrapped (n : Vec) (hn : a.los = some n) (L : Vec) (hL : a.used = some L) (t : Vec) (m : Vec → Fin 3 → ℤ) (h : c.Fits a) (h' : c'.Fits a)
    (hm : Moved π (fun x i => x i + t i + m x i * L i) c c') (hr : Ranked π c a.rankby) : SameRows π c c' := by
  refine groups_same h h' hm rfl hr fun p q => ?_
  unfold InCylinder
  refine exists_congr fun x => ?_
  have e : Image a.used (fun i => p i + t i + m p i * L i) (fun i => q i + t i + m q i * L i) x ↔ Image a.used p q x := by
    unfold Image
    rw [hL]
    refine forall_congr' fun i => and_congr (by simp) ?_
    constructor
    · intro H L' hL'
      obtain ⟨k, k1, k2⟩ := H L' hL'
      cases hL'
      exact ⟨k + m p i - m q i, by push_cast; linear_combination k1, k2⟩
    · intro H L' hL'
      obtain ⟨k, k1, k2⟩ := H L' hL'
      cases hL'
      exact ⟨k - m p i + m q i, by push_cast; linear_combination k1, k2⟩
  rw [e, hn]
  simp only [reduceCtorEq, false_implies, and_true]

/-- A linear map that keeps scalar products. -/
structure Rotation (R : Vec → Vec) : Prop where
  sub : ∀ x y, R (x - y) = R x - R y
  add : ∀ x y, R (x + y) = R x + R y
  dot : ∀ x y, dot (R x) (R y) = dot x y

/-- **C146** Rotations and mirror images of a catalog without periods: with the line of sight to the pair, or with a fixed one rotated along. -/
theorem groups_rotated {R : Vec → Vec} (hR : Rotation R) (h : c.Fits a) (h' : c'.Fits { a with los := a.los.map R }) (hp : a.used = none) (hm : Moved π R c c')
    (hr : Ranked π c a.rankby) : SameRows π c c' := by
  refine groups_same h h' hm rfl hr fun p q => ?_
  have hu : (Attrs.used { a with los := a.los.map R }) = none := hp
  have key : ∀ (los : Option Vec) (p q : Vec), InCylinder los none a.rperp a.rpar p q ↔
      (∀ n, los = some n → (dot (p - q) n) ^ 2 ≤ a.rpar ^ 2 ∧ |dot (p - q) (p - q) - (dot (p - q) n) ^ 2| ≤ a.rperp ^ 2) ∧
      (los = none → dot (p + q) (p + q) ≠ 0 ∧ (dot (p - q) (p + q)) ^ 2 ≤ a.rpar ^ 2 * dot (p + q) (p + q) ∧
      |dot (p - q) (p - q) * dot (p + q) (p + q) - (dot (p - q) (p + q)) ^ 2| ≤ a.rperp ^ 2 * dot (p + q) (p + q)) := by
    intro los p q
    constructor
    · rintro ⟨x, hx, H⟩
      have : x = p - q := funext fun i => (hx i).1 rfl
      subst this
      exact H
    · intro H
      exact ⟨p - q, fun i => ⟨fun _ => rfl, fun L hL => by cases hL⟩, H⟩
  rw [hu, hp]
  dsimp only
  rw [key, key, ← hR.sub, ← hR.add]
  cases hl : a.los with
  | none => simp only [Option.map_none, reduceCtorEq, false_implies, forall_const, true_implies, hR.dot]
  | some n => simp only [Option.map_some, Option.some.injEq, reduceCtorEq, false_implies, and_true, forall_eq', hR.dot]

/-- **C146** Units: lengths times a positive number. -/
theorem groups_units {u : ℚ} (hu : 0 < u) (h : c.Fits a) (h' : c'.Fits { a with rperp := u * a.rperp, rpar := u * a.rpar, box := a.box.map fun b i => u * b i })
    (hm : Moved π (fun x i => u * x i) c c') (hr : Ranked π c a.rankby) : SameRows π c c' := by
  refine groups_same h h' hm rfl hr fun p q => ?_
  have hused : Attrs.used { a with rperp := u * a.rperp, rpar := u * a.rpar, box := a.box.map fun b i => u * b i } = a.used.map fun b i => u * b i := by
    unfold Attrs.used
    dsimp only
    split <;> rfl
  rw [hused]
  dsimp only
  have u2 : (0 : ℚ) < u ^ 2 := by positivity
  have u4 : (0 : ℚ) < u ^ 4 := by positivity
  have hcut : ∀ (los : Option Vec) (x : Vec),
      ((∀ n, los = some n → (dot (fun i => u * x i) n) ^ 2 ≤ (u * a.rpar) ^ 2 ∧ |dot (fun i => u * x i) (fun i => u * x i) - (dot (fun i => u * x i) n) ^ 2| ≤ (u * a.rperp) ^ 2) ∧
      (los = none → dot ((fun i => u * p i) + fun i => u * q i) ((fun i => u * p i) + fun i => u * q i) ≠ 0 ∧
        (dot (fun i => u * x i) ((fun i => u * p i) + fun i => u * q i)) ^ 2 ≤ (u * a.rpar) ^ 2 * dot ((fun i => u * p i) + fun i => u * q i) ((fun i => u * p i) + fun i => u * q i) ∧
      |dot (fun i => u * x i) (fun i => u * x i) * dot ((fun i => u * p i) + fun i => u * q i) ((fun i => u * p i) + fun i => u * q i) -
          (dot (fun i => u * x i) ((fun i => u * p i) + fun i => u * q i)) ^ 2| ≤ (u * a.rperp) ^ 2 * dot ((fun i => u * p i) + fun i => u * q i) ((fun i => u * p i) + fun i => u * q i))) ↔
      ((∀ n, los = some n → (dot x n) ^ 2 ≤ a.rpar ^ 2 ∧ |dot x x - (dot x n) ^ 2| ≤ a.rperp ^ 2) ∧
      (los = none → dot (p + q) (p + q) ≠ 0 ∧ (dot x (p + q)) ^ 2 ≤ a.rpar ^ 2 * dot (p + q) (p + q) ∧
      |dot x x * dot (p + q) (p + q) - (dot x (p + q)) ^ 2| ≤ a.rperp ^ 2 * dot (p + q) (p + q))) := by
    intro los x
    have d1 : ∀ n : Vec, dot (fun i => u * x i) n = u * dot x n := fun n => by unfold dot; ring
    have d2 : dot (fun i => u * x i) (fun i => u * x i) = u ^ 2 * dot x x := by unfold dot; ring
    have d3 : (fun i => u * p i) + (fun i => u * q i) = fun i => u * (p + q) i := by funext i; simp [mul_add]
    have d4 : dot (fun i => u * (p + q) i) (fun i => u * (p + q) i) = u ^ 2 * dot (p + q) (p + q) := by unfold dot; ring
    have d5 : dot (fun i => u * x i) (fun i => u * (p + q) i) = u ^ 2 * dot x (p + q) := by unfold dot; ring
    rw [d3, d4, d5, d2]
    simp only [d1]
    generalize dot x (p + q) = A
    generalize dot (p + q) (p + q) = B
    generalize dot x x = C
    refine and_congr (forall_congr' fun n => imp_congr Iff.rfl ?_) (imp_congr Iff.rfl ?_)
    · generalize dot x n = D
      have e1 : u ^ 2 * C - (u * D) ^ 2 = u ^ 2 * (C - D ^ 2) := by ring
      rw [e1, abs_mul, abs_of_pos u2, mul_pow, mul_pow, mul_pow]
      exact and_congr (mul_le_mul_iff_right₀ u2) (mul_le_mul_iff_right₀ u2)
    · have e1 : u ^ 2 * C * (u ^ 2 * B) - (u ^ 2 * A) ^ 2 = u ^ 4 * (C * B - A ^ 2) := by ring
      have e2 : ∀ r : ℚ, (u * r) ^ 2 * (u ^ 2 * B) = u ^ 4 * (r ^ 2 * B) := fun r => by ring
      have e3 : (u ^ 2 * A) ^ 2 = u ^ 4 * A ^ 2 := by ring
      rw [e1, e2, e2, e3, abs_mul, abs_of_pos u4]
      refine and_congr (not_congr ?_) (and_congr (mul_le_mul_iff_right₀ u4) (mul_le_mul_iff_right₀ u4))
      constructor
      · intro h0
        rcases mul_eq_zero.mp h0 with k | k
        · exact absurd k (ne_of_gt u2)
        · exact k
      · intro h0
        rw [h0, mul_zero]
  have himg : ∀ x : Vec, Image (a.used.map fun b i => u * b i) (fun i => u * p i) (fun i => u * q i) (fun i => u * x i) ↔ Image a.used p q x := by
    intro x
    unfold Image
    refine forall_congr' fun i => ?_
    cases a.used with
    | none =>
      simp only [Option.map_none, true_implies, reduceCtorEq, false_implies, implies_true, and_true]
      rw [← mul_sub]
      exact mul_right_inj' (ne_of_gt hu)
    | some L =>
      simp only [Option.map_some, reduceCtorEq, false_implies, true_and, Option.some.injEq, forall_eq']
      refine exists_congr fun k => ?_
      have e1 : u * p i - u * q i + k * (u * L i) = u * (p i - q i + k * L i) := by ring
      have e2 : -(u * L i) = u * -(L i) := by ring
      have e3 : 2 * (u * x i) = u * (2 * x i) := by ring
      rw [e1, e2, e3]
      exact and_congr (mul_right_inj' (ne_of_gt hu)) (and_congr (mul_lt_mul_iff_right₀ hu) (mul_le_mul_iff_right₀ hu))
  constructor
  · rintro ⟨x, hx, H⟩
    have hxx : x = fun i => u * (x i / u) := funext fun i => by field_simp
    refine ⟨fun i => x i / u, ?_, ?_⟩
    · rw [hxx] at hx
      exact (himg _).mp hx
    · rw [hxx] at H
      exact (hcut _ _).mp H
  · rintro ⟨x, hx, H⟩
    exact ⟨fun i => u * x i, (himg x).mpr hx, (hcut _ _).mpr H⟩

end

end NBK.CgmObj
