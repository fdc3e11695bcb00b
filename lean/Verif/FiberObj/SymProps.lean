import Verif.FiberObj.CaseProps
import Verif.FofObj.SymProps

/-! # C148: collision groups of two catalogs: layouts, rotations of the sky, units of the angles, larger radii -/
set_option linter.unusedSimpArgs false
namespace NBK.FiberObj
open NBK

/-- The label of an object. -/
def Obj.label (o : Obj) (p : Nat) : Option Nat := (o.rows.flatten[p]?).map Row.label

/-- Two objects are in the same collision group. -/
def Obj.Together (o : Obj) (p q : Nat) : Prop := ∃ k, k ≠ 0 ∧ o.label p = some k ∧ o.label q = some k

/-- A call of `FiberCollisions`, and the machine it runs on. -/
structure Call where
  e : Env
  a : Args

/-- The machine does what is expected from it, and there are at least two objects on each rank. -/
structure Call.Fits (c : Call) : Prop where
  world : World c.e c.a
  ranks : c.a.sky ≠ []
  rank : ∀ l ∈ c.a.sky, 2 ≤ l.length
  nonneg : 0 ≤ c.a.radius

/-- The number of objects. -/
def Call.n (c : Call) : Nat := c.a.sky.flatten.length

/-- `FiberCollisions` ends with the object `o`. -/
def Call.Ends (c : Call) (o : Obj) : Prop := ∃ fuel₀, ∀ fuel ≥ fuel₀, new c.e fuel c.a = some (.ok o)

/-- The groups are those of the links, and no others. -/
theorem Call.Fits.ends {c : Call} (h : c.Fits) : ∃ o, c.Ends o ∧ (∀ p < c.n, o.label p = some 0 ↔ ∀ q < c.n, Fof.Conn (Near c.a) p q → q = p) ∧
    (∀ p < c.n, ∀ q < c.n, p ≠ q → (o.Together p q ↔ Fof.Conn (Near c.a) p q)) := by
  obtain ⟨f, o, lab, col, nb, h1, -, -, -, -, h2, h3, h4, -⟩ := fibers_partial c.e c.a h.world h.ranks h.rank h.nonneg
  have hl : ∀ p < c.n, o.label p = some (lab p) := by
    intro p hp
    unfold Obj.label
    rw [h2, List.getElem?_map, List.getElem?_range (show p < c.a.sky.flatten.length from hp)]
    rfl
  refine ⟨o, ⟨f, h1⟩, fun p hp => ?_, fun p hp q hq hpq => ?_⟩
  · rw [hl p hp, Option.some.injEq]
    exact h3 p hp
  · unfold Obj.Together
    rw [hl p hp, hl q hq]
    constructor
    · rintro ⟨k, hk, e1, e2⟩
      cases e1
      refine (h4 p hp q hq hk).mp ?_
      exact Option.some.inj e2
    · intro hc
      have h0 : lab p ≠ 0 := fun h0 => hpq ((h3 p hp).mp h0 q hq hc).symm
      exact ⟨lab p, h0, rfl, by rw [(h4 p hp q hq h0).mpr hc]⟩

/-- The same groups. -/
structure SameGroups (π : Nat ≃ Nat) (n : Nat) (o o' : Obj) : Prop where
  alone : ∀ p < n, o'.label (π p) = some 0 ↔ o.label p = some 0
  together : ∀ p < n, ∀ q < n, p ≠ q → (o'.Together (π p) (π q) ↔ o.Together p q)

section
variable {c c' : Call} {π : Nat ≃ Nat}

/-- **C148** Two catalogs with the same links have the same collision groups. -/
theorem fibers_same (h : c.Fits) (h' : c'.Fits) (hlt : ∀ p, π p < c'.n ↔ p < c.n) (hnear : ∀ p q, Near c'.a (π p) (π q) ↔ Near c.a p q) :
    ∃ o o', c.Ends o ∧ c'.Ends o' ∧ SameGroups π c.n o o' := by
  obtain ⟨o, e, g1, g2⟩ := h.ends
  obtain ⟨o', e', g1', g2'⟩ := h'.ends
  have hc : ∀ p q, Fof.Conn (Near c'.a) (π p) (π q) ↔ Fof.Conn (Near c.a) p q := fun p q => FofObj.eqv_map π hnear p q
  refine ⟨o, o', e, e', fun p hp => ?_, fun p hp q hq hpq => ?_⟩
  · rw [g1 p hp, g1' _ ((hlt p).mpr hp)]
    constructor
    · intro H q hq hpq
      exact π.injective (H (π q) ((hlt q).mpr hq) ((hc p q).mpr hpq))
    · intro H q hq hpq
      obtain ⟨j, rfl⟩ := π.surjective q
      rw [H j ((hlt j).mp hq) ((hc p j).mp hpq)]
  · rw [g2 p hp q hq hpq, g2' _ ((hlt p).mpr hp) _ ((hlt q).mpr hq) fun e => hpq (π.injective e)]
    exact hc p q

/-- The objects of the second call are those of the first after the change `f` of their coordinates, in the order `π`; ranks play no role. -/
def Moved (π : Nat ≃ Nat) (f : ℝ × ℝ → ℝ × ℝ) (c c' : Call) : Prop := ∀ p, c'.a.sky.flatten[π p]? = (c.a.sky.flatten[p]?).map f

theorem Moved.lt {f : ℝ × ℝ → ℝ × ℝ} (hm : Moved π f c c') (p : Nat) : π p < c'.n ↔ p < c.n := by
  have h := congrArg Option.isSome (hm p)
  rw [Option.isSome_map] at h
  have e : ∀ (l : List (ℝ × ℝ)) (i : Nat), l[i]?.isSome = true ↔ i < l.length := fun l i => by simp
  unfold Call.n
  rw [← e, ← e, h]

/-- **C148** Ranks, order, and the same directions given in other angles: degrees or radians, a full turn more. -/
theorem fibers_directions {f : ℝ × ℝ → ℝ × ℝ} (h : c.Fits) (h' : c'.Fits) (hm : Moved π f c c') (hr : c'.a.radius = c.a.radius)
    (hd : ∀ x, dir c'.a (f x) = dir c.a x) : ∃ o o', c.Ends o ∧ c'.Ends o' ∧ SameGroups π c.n o o' := by
  refine fibers_same h h' hm.lt fun p q => ?_
  unfold Near radius
  rw [hm p, hm q, hr]
  constructor
  · rintro ⟨x, y, hx, hy, H⟩
    obtain ⟨x0, hx0, rfl⟩ := Option.map_eq_some_iff.mp hx
    obtain ⟨y0, hy0, rfl⟩ := Option.map_eq_some_iff.mp hy
    rw [hd, hd] at H
    exact ⟨x0, y0, hx0, hy0, H⟩
  · rintro ⟨x, y, hx, hy, H⟩
    refine ⟨f x, f y, by rw [hx]; rfl, by rw [hy]; rfl, ?_⟩
    rw [hd, hd]
    exact H

/-- **C148** Rotations and mirror images of the sky, for radii below 0.2 radians: separations are all that matters. -/
theorem fibers_rotated_partial {f : ℝ × ℝ → ℝ × ℝ} (h : c.Fits) (h' : c'.Fits) (hm : Moved π f c c') (hr : c'.a.radius = c.a.radius) (hs : radius c.a < 2 / 10)
    (hf : ∀ x y, (dir c'.a (f x)).dot (dir c'.a (f y)) = (dir c.a x).dot (dir c.a y)) : ∃ o o', c.Ends o ∧ c'.Ends o' ∧ SameGroups π c.n o o' := by
  refine fibers_same h h' hm.lt fun p q => ?_
  have e : radius c'.a = radius c.a := by unfold radius; rw [hr]
  have h0 : 0 ≤ radius c.a := by unfold radius; have := h.nonneg; have := Real.pi_pos; positivity
  have key : ∀ x y, c.a.sky.flatten[p]? = some x → c.a.sky.flatten[q]? = some y → (Near c'.a (π p) (π q) ↔ Near c.a p q) := by
    intro x y hx hy
    rw [near_small c.a h0 hs p q x y hx hy, near_small c'.a (e ▸ h0) (e ▸ hs) (π p) (π q) (f x) (f y) (by rw [hm p, hx]; rfl) (by rw [hm q, hy]; rfl), e]
    unfold sep
    rw [hf]
  cases hx : c.a.sky.flatten[p]? with
  | none =>
    constructor
    · rintro ⟨x, y, hx', _⟩
      rw [hm p, hx] at hx'
      cases hx'
    · rintro ⟨x, y, hx', _⟩
      rw [hx] at hx'
      cases hx'
  | some x =>
    cases hy : c.a.sky.flatten[q]? with
    | none =>
      constructor
      · rintro ⟨_, y, _, hy', _⟩
        rw [hm q, hy] at hy'
        cases hy'
      · rintro ⟨_, y, _, hy', _⟩
        rw [hy] at hy'
        cases hy'
    | some y => exact key x y hx hy

/-- **C148** A larger radius: groups only merge. -/
theorem fibers_nested (h : c.Fits) (h' : c'.Fits) (hs : c'.a.sky.flatten = c.a.sky.flatten) (hd : c'.a.degrees = c.a.degrees) (hr : c.a.radius ≤ c'.a.radius) :
    ∃ o o', c.Ends o ∧ c'.Ends o' ∧ ∀ p < c.n, (o'.label p = some 0 → o.label p = some 0) ∧ ∀ q < c.n, p ≠ q → o.Together p q → o'.Together p q := by
  obtain ⟨o, e, g1, g2⟩ := h.ends
  obtain ⟨o', e', g1', g2'⟩ := h'.ends
  have hn : c'.n = c.n := by unfold Call.n; rw [hs]
  rw [hn] at g1' g2'
  have hlink : ∀ p q, Near c.a p q → Near c'.a p q := by
    rintro p q ⟨x, y, hx, hy, k, l, m, H⟩
    refine ⟨x, y, by rw [hs]; exact hx, by rw [hs]; exact hy, k, l, m, ?_⟩
    have ed : ∀ z, dir c'.a z = dir c.a z := fun z => by unfold dir; rw [hd]
    rw [ed, ed]
    refine H.trans (pow_le_pow_left₀ ?_ ?_ 2)
    · unfold radius; have := h.nonneg; have := Real.pi_pos; positivity
    · unfold radius; have := Real.pi_pos; exact mul_le_mul_of_nonneg_right hr (by positivity)
  have hc : ∀ p q, Fof.Conn (Near c.a) p q → Fof.Conn (Near c'.a) p q := fun p q => Relation.EqvGen.mono hlink p q
  refine ⟨o, o', e, e', fun p hp => ⟨fun H => ?_, fun q hq hpq H => ?_⟩⟩
  · rw [g1 p hp]
    intro q hq hpq
    exact (g1' p hp).mp H q hq (hc p q hpq)
  · rw [g2' p hp q hq hpq]
    exact hc p q ((g2 p hp q hq hpq).mp H)

end

/-! ### Cases: two objects a tenth of a degree apart, radius one degree -/

/-- Two objects on one rank. -/
noncomputable def duo (x y : ℝ × ℝ) (r : ℝ) (degrees : Bool) : Call := ⟨pairEnv, ⟨[[x, y]], r, none, degrees⟩⟩

theorem duo_fits (x y : ℝ × ℝ) (r : ℝ) (degrees : Bool) (hr : 0 ≤ r) (hn : Near (duo x y r degrees).a 0 1) : (duo x y r degrees).Fits :=
  ⟨pair_world _ x y rfl hn, by simp [duo], by simp [duo], hr⟩

/-- Two objects on the equator are linked if the difference of their right ascensions is at most the radius. -/
theorem equator_near (α β r : ℝ) (hr : |α - β| ≤ r) : Near (duo (α, 0) (β, 0) r true).a 0 1 := by
  have h0 : 0 ≤ r := (abs_nonneg _).trans hr
  refine near_of_chord (duo (α, 0) (β, 0) r true).a ?_ 0 1 (α, 0) (β, 0) rfl rfl ?_
  · unfold radius duo
    have := Real.pi_pos
    positivity
  · refine chord_le_of_sep (duo (α, 0) (β, 0) r true).a (α, 0) (β, 0) _ ?_
    have e : (dir (duo (α, 0) (β, 0) r true).a (α, 0)).dot (dir (duo (α, 0) (β, 0) r true).a (β, 0)) = Real.cos (|α - β| * (Real.pi / 180)) := by
      have hpi := Real.pi_pos
      rw [show |α - β| * (Real.pi / 180) = |(α - β) * (Real.pi / 180)| by rw [abs_mul, abs_of_pos (by positivity : 0 < Real.pi / 180)], Real.cos_abs, sub_mul, Real.cos_sub]
      simp [dir, duo, Sky.skyToUnitSphere, Sky.deg2rad, Sky.Vec.dot]
    unfold sep
    rw [e]
    have hpi := Real.pi_pos
    have hb : 0 ≤ |α - β| * (Real.pi / 180) := by positivity
    by_cases hle : |α - β| * (Real.pi / 180) ≤ Real.pi
    · rw [Real.arccos_cos hb hle]
      unfold radius duo
      exact mul_le_mul_of_nonneg_right hr (by positivity)
    · refine (Real.arccos_le_pi _).trans ((le_of_not_ge hle).trans ?_)
      unfold radius duo
      exact mul_le_mul_of_nonneg_right hr (by positivity)

theorem duo_moved (f : ℝ × ℝ → ℝ × ℝ) (x y : ℝ × ℝ) (r r' : ℝ) (d d' : Bool) : Moved (Equiv.refl Nat) f (duo x y r d) (duo (f x) (f y) r' d') := by
  intro k
  match k with
  | 0 | 1 | k + 2 => rfl

/-- A rotation of the sky by ten degrees about the axis. -/
example : ∃ o o', (duo (0, 0) (1 / 10, 0) 1 true).Ends o ∧ (duo (0 + 10, 0) (1 / 10 + 10, 0) 1 true).Ends o' ∧ SameGroups (Equiv.refl Nat) 2 o o' := by
  refine fibers_rotated_partial (f := fun x => (x.1 + 10, x.2)) (duo_fits _ _ _ _ (by norm_num) (equator_near _ _ _ (by norm_num [abs_le])))
    (duo_fits _ _ _ _ (by norm_num) (equator_near _ _ _ (by norm_num [abs_le]))) (duo_moved _ _ _ _ _ _ _) rfl ?_ ?_
  · unfold radius duo
    have := Real.pi_le_four
    dsimp only
    linarith
  · intro x y
    simp only [dir, duo, Sky.skyToUnitSphere, Sky.deg2rad, Sky.Vec.dot, if_true]
    have e1 : ∀ u : ℝ, (u + 10) * (Real.pi / 180) = u * (Real.pi / 180) + 10 * (Real.pi / 180) := fun u => by ring
    rw [e1, e1]
    simp only [Real.cos_add, Real.sin_add]
    have h1 := Real.sin_sq_add_cos_sq (10 * (Real.pi / 180))
    generalize Real.cos (10 * (Real.pi / 180)) = C at h1 ⊢
    generalize Real.sin (10 * (Real.pi / 180)) = S at h1 ⊢
    generalize Real.cos (x.1 * (Real.pi / 180)) = a
    generalize Real.sin (x.1 * (Real.pi / 180)) = b
    generalize Real.cos (y.1 * (Real.pi / 180)) = p
    generalize Real.sin (y.1 * (Real.pi / 180)) = q
    generalize Real.cos (x.2 * (Real.pi / 180)) = u
    generalize Real.cos (y.2 * (Real.pi / 180)) = v
    linear_combination (u * v * (a * p + b * q)) * h1

/-- The angles in radians. -/
example : ∃ o o', (duo (0, 0) (1 / 10, 0) 1 true).Ends o ∧
    (duo (Sky.deg2rad 0, Sky.deg2rad 0) (Sky.deg2rad (1 / 10), Sky.deg2rad 0) 1 false).Ends o' ∧ SameGroups (Equiv.refl Nat) 2 o o' := by
  have hd : ∀ x : ℝ × ℝ, ∀ s s' r r', dir ⟨s', r', none, false⟩ (Sky.deg2rad x.1, Sky.deg2rad x.2) = dir ⟨s, r, none, true⟩ x := by
    intro x s s' r r'
    simp [dir, Sky.skyToUnitSphere, Sky.deg2rad]
  have hn := equator_near 0 (1 / 10) 1 (by norm_num [abs_le])
  refine fibers_directions (f := fun x => (Sky.deg2rad x.1, Sky.deg2rad x.2)) (duo_fits _ _ _ _ (by norm_num) hn) (duo_fits _ _ _ _ (by norm_num) ?_) (duo_moved _ _ _ _ _ _ _) rfl
    fun x => hd x _ _ _ _
  obtain ⟨x, y, hx, hy, k, l, m, H⟩ := hn
  refine ⟨(Sky.deg2rad x.1, Sky.deg2rad x.2), (Sky.deg2rad y.1, Sky.deg2rad y.2), ?_, ?_, k, l, m, ?_⟩
  · cases hx; rfl
  · cases hy; rfl
  · have e1 := hd x [[((0 : ℝ), (0 : ℝ)), (1 / 10, 0)]] [[(Sky.deg2rad 0, Sky.deg2rad 0), (Sky.deg2rad (1 / 10), Sky.deg2rad 0)]] 1 1
    have e2 := hd y [[((0 : ℝ), (0 : ℝ)), (1 / 10, 0)]] [[(Sky.deg2rad 0, Sky.deg2rad 0), (Sky.deg2rad (1 / 10), Sky.deg2rad 0)]] 1 1
    unfold duo at H ⊢
    rw [e1, e2]
    exact H

/-- A larger radius. -/
example : ∃ o o', (duo (0, 0) (1 / 10, 0) 1 true).Ends o ∧ (duo (0, 0) (1 / 10, 0) 2 true).Ends o' ∧
    ∀ p < 2, (o'.label p = some 0 → o.label p = some 0) ∧ ∀ q < 2, p ≠ q → o.Together p q → o'.Together p q :=
  fibers_nested (c := duo (0, 0) (1 / 10, 0) 1 true) (c' := duo (0, 0) (1 / 10, 0) 2 true) (duo_fits _ _ _ _ (by norm_num) (equator_near _ _ _ (by norm_num [abs_le])))
    (duo_fits _ _ _ _ (by norm_num) (equator_near _ _ _ (by norm_num [abs_le]))) rfl rfl (by norm_num [duo])

/-- **C148** For radii of 0.2 radians and more a rotation may change the groups: opposite directions are linked along an axis of the box, and not 45 degrees from it. -/
theorem rotation_matters : Near (duo (0, 0) (180, 0) 12 true).a 0 1 ∧ ¬ Near (duo (0 + 45, 0) (180 + 45, 0) 12 true).a 0 1 := by
  have hpi : (180 : ℝ) * (Real.pi / 180) = Real.pi := by field_simp
  constructor
  · refine ⟨(0, 0), (180, 0), rfl, rfl, -1, 0, 0, ?_⟩
    simp only [dir, duo, radius, Sky.skyToUnitSphere, Sky.deg2rad, hpi, if_true]
    have := Real.pi_gt_three
    norm_num
    nlinarith
  · rintro ⟨x, y, hx, hy, k, l, m, H⟩
    cases hx
    cases hy
    have e1 : (0 + 45 : ℝ) * (Real.pi / 180) = Real.pi / 4 := by ring
    have e2 : (180 + 45 : ℝ) * (Real.pi / 180) = Real.pi / 4 + Real.pi := by ring
    simp only [dir, duo, radius, Sky.skyToUnitSphere, Sky.deg2rad, e1, e2, if_true, zero_mul, Real.cos_zero, one_mul, Real.cos_add_pi, Real.cos_pi_div_four] at H
    have hs0 : 0 ≤ Real.sqrt 2 := Real.sqrt_nonneg 2
    have hs2 : Real.sqrt 2 ^ 2 = 2 := Real.sq_sqrt (by norm_num)
    have b1 : (14 / 10 : ℝ) ≤ Real.sqrt 2 := by nlinarith
    have b2 : Real.sqrt 2 ≤ 15 / 10 := by nlinarith
    have key : (7 / 10 : ℝ) ^ 2 ≤ (Real.sqrt 2 / 2 - -(Real.sqrt 2 / 2) + k * (22 / 10)) ^ 2 := by
      rcases lt_or_ge k 0 with hk | hk
      · have : (k : ℝ) ≤ -1 := by exact_mod_cast Int.le_sub_one_of_lt hk
        nlinarith
      · have : (0 : ℝ) ≤ k := by exact_mod_cast hk
        nlinarith
    have hp4 := Real.pi_le_four
    have hp0 := Real.pi_pos
    have hr : (12 * (Real.pi / 180)) ^ 2 ≤ (48 / 180) ^ 2 := pow_le_pow_left₀ (by positivity) (by linarith) 2
    have s1 := sq_nonneg (Real.cos 0 * 0)
    nlinarith [sq_nonneg (Real.sqrt 2), H, key, hr, sq_nonneg ((1 : ℝ))]

end NBK.FiberObj
