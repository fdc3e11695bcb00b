import Verif.Kd.Props
import Verif.BoxTpcf.Lemmas
import Mathlib.Tactic.FieldSimp

/-! # C147: the density of two catalogs of the same particles: layouts, translations, mirror images, axes, units, more particles, coincident particles -/

set_option linter.unusedSimpArgs false

namespace NBK.Kd
open NBK.Pairs

/-- The square of the inverse cube of the distance to the eighth nearest; `none` is infinite. -/
def value (L : ℚ) (D : List (List Pos)) (p : Pos) : Option ℚ :=
  match trueD L D p with
  | none => some 0
  | some t => if t = 0 then none else some (1 / t ^ 3)

/-- A run in which the margin covers the eight neighbours, or with one domain. -/
structure Fits (L : ℚ) (np : Nat × Nat × Nat) (sm : ℚ) (D : List (List Pos)) : Prop where
  nx : 0 < np.1
  ny : 0 < np.2.1
  nz : 0 < np.2.2
  margin : 0 ≤ sm
  inside : ∀ p ∈ D.flatten, InBox L p
  covers : np = (1, 1, 1) ∨ ∀ p ∈ D.flatten, ∃ t, trueD L D p = some t ∧ t ≤ sm ^ 2

theorem density_scale (L t : ℚ) (hL : 0 < L) : density2 L (some (t / L ^ 2)) = if t = 0 then none else some (1 / t ^ 3) := by
  show (if t / L ^ 2 = 0 then none else some (1 / ((t / L ^ 2) ^ 3 * (L * L * L) ^ 2))) = _
  by_cases h : t = 0
  · rw [if_pos h, if_pos (by rw [h, zero_div])]
  · have h1 : ¬ t / L ^ 2 = 0 := div_ne_zero h (by positivity)
    rw [if_neg h, if_neg h1]
    congr 1
    field_simp

/-- **C147** The density of each particle, for any ranks and domains. -/
theorem Fits.value {L sm : ℚ} {np : Nat × Nat × Nat} {D : List (List Pos)} (h : Fits L np sm D) :
    run L np sm D = D.map fun l => l.map (value L D) := by
  have hD : ∀ l ∈ D, ∀ q ∈ l, InBox L q := fun l hl q hq => h.inside q (List.mem_flatten.mpr ⟨l, hl, hq⟩)
  unfold run
  apply List.map_congr_left
  intro l hl
  apply List.map_congr_left
  intro p hp
  have hin := hD l hl p hp
  have hL : 0 < L := lt_of_le_of_lt hin.1.1 hin.1.2
  unfold Kd.value
  rcases h.covers with h1 | h1
  · rw [h1, one_domain L sm h.margin D p hin hD]
    cases trueD L D p with
    | none => rfl
    | some t => exact density_scale L t hL
  · obtain ⟨t, ht, hts⟩ := h1 p (List.mem_flatten.mpr ⟨l, hl, hp⟩)
    rw [exact_partial L np h.nx h.ny h.nz sm h.margin D p hin hD t ht hts, ht]
    exact density_scale L t hL

/-- The particles of all ranks with their densities. -/
def rows (L : ℚ) (np : Nat × Nat × Nat) (sm : ℚ) (D : List (List Pos)) : List (Pos × Option ℚ) := D.flatten.zip (run L np sm D).flatten

theorem Fits.rows {L sm : ℚ} {np : Nat × Nat × Nat} {D : List (List Pos)} (h : Fits L np sm D) :
    rows L np sm D = D.flatten.map fun p => (p, Kd.value L D p) := by
  unfold Kd.rows
  rw [h.value, ← List.map_flatten]
  generalize Kd.value L D = g
  induction D.flatten with
  | nil => rfl
  | cons p l ih => rw [List.map_cons, List.zip_cons_cons, ih, List.map_cons]

/-- The change `f` of the particles multiplies all separations by `u`. -/
def Stretches (L L' u : ℚ) (f : Pos → Pos) : Prop := ∀ p q, InBox L p → InBox L q → sep2 ⟨L', L', L'⟩ (f p) (f q) = u ^ 2 * sep2 ⟨L, L, L⟩ p q

section
variable {L L' sm sm' u : ℚ} {np np' : Nat × Nat × Nat} {D D' : List (List Pos)} {f : Pos → Pos}

theorem trueD_carried (hu : 0 < u) (hf : Stretches L L' u f) (hD : ∀ p ∈ D.flatten, InBox L p) (hp : D'.flatten.Perm (D.flatten.map f)) {p : Pos} (hin : InBox L p) :
    trueD L' D' (f p) = (trueD L D p).map fun t => u ^ 2 * t := by
  have u2 : (0 : ℚ) < u ^ 2 := by positivity
  apply Le_ext
  intro x
  have e : Le ((trueD L D p).map fun t => u ^ 2 * t) x ↔ Le (trueD L D p) (x / u ^ 2) := by
    cases trueD L D p with
    | none => simp [Le]
    | some t => simp [Le, le_div_iff₀' u2]
  rw [e, trueD_spec, trueD_spec, hp.countP_eq, List.countP_map]
  have : D.flatten.countP ((fun q => decide (sep2 ⟨L', L', L'⟩ (f p) q ≤ x)) ∘ f) = D.flatten.countP fun q => decide (sep2 ⟨L, L, L⟩ p q ≤ x / u ^ 2) := by
    apply List.countP_congr
    intro q hq
    simp only [Function.comp_apply, decide_eq_true_eq]
    rw [hf p q hin (hD q hq), le_div_iff₀' u2]
  rw [this]

/-- **C147** Two runs on particles that correspond to each other, with separations multiplied by `u`: the densities are divided by the cube of `u`. -/
theorem density_same (hu : 0 < u) (h : Fits L np sm D) (h' : Fits L' np' sm' D') (hf : Stretches L L' u f) (hp : D'.flatten.Perm (D.flatten.map f)) :
    (rows L' np' sm' D').Perm ((rows L np sm D).map fun x => (f x.1, x.2.map (· / (u ^ 3) ^ 2))) := by
  rw [h.rows, h'.rows]
  refine (hp.map _).trans (List.Perm.of_eq ?_)
  rw [List.map_map, List.map_map]
  apply List.map_congr_left
  intro p hpD
  simp only [Function.comp_apply, Prod.mk.injEq, true_and]
  unfold value
  rw [trueD_carried hu hf h.inside hp (h.inside p hpD)]
  cases trueD L D p with
  | none => simp
  | some t =>
    simp only [Option.map_some]
    by_cases h0 : t = 0
    · simp [h0]
    · have h1 : ¬ u ^ 2 * t = 0 := mul_ne_zero (by positivity) h0
      rw [if_neg h0, if_neg h1, Option.map_some]
      congr 1
      field_simp

/-- **C147** Isometries. -/
theorem density_isometry (h : Fits L np sm D) (h' : Fits L np' sm' D') (hf : ∀ p q, InBox L p → InBox L q → sep2 ⟨L, L, L⟩ (f p) (f q) = sep2 ⟨L, L, L⟩ p q)
    (hp : D'.flatten.Perm (D.flatten.map f)) : (rows L np' sm' D').Perm ((rows L np sm D).map fun x => (f x.1, x.2)) := by
  refine (density_same (u := 1) one_pos h h' (fun p q a b => by rw [hf p q a b]; ring) hp).trans (List.Perm.of_eq ?_)
  apply List.map_congr_left
  intro x _
  cases x.2 <;> simp

/-- **C147** Ranks, order, domains and margins. -/
theorem density_layout (h : Fits L np sm D) (h' : Fits L np' sm' D') (hp : D'.flatten.Perm D.flatten) : (rows L np' sm' D').Perm (rows L np sm D) := by
  have := density_isometry (f := id) h h' (fun _ _ _ _ => rfl) (by rwa [List.map_id])
  simpa using this

theorem axis_moved (L t a b : ℚ) (ha : 0 ≤ a ∧ a < L) (hb : 0 ≤ b ∧ b < L) : axisSq L (wrap L (a + t)) (wrap L (b + t)) = axisSq L a b := by
  have hL : 0 < L := lt_of_le_of_lt ha.1 ha.2
  have h := BoxTpcf.wrap_least L (a + t) (b + t) hL
  rw [add_sub_add_right_eq_sub] at h
  exact h.unique (BoxTpcf.axisSq_least L a b ha hb)

theorem axis_mirrored (L a b : ℚ) (ha : 0 ≤ a ∧ a < L) (hb : 0 ≤ b ∧ b < L) : axisSq L (wrap L (-a)) (wrap L (-b)) = axisSq L a b := by
  have hL : 0 < L := lt_of_le_of_lt ha.1 ha.2
  have h := (BoxTpcf.wrap_least L (-a) (-b) hL).neg
  rw [show -(-a - -b) = a - b by ring] at h
  exact h.unique (BoxTpcf.axisSq_least L a b ha hb)

/-- **C147** Translations, wrapped back into the box. -/
theorem density_shift (t : Pos) (h : Fits L np sm D) (h' : Fits L np' sm' D')
    (hp : D'.flatten.Perm (D.flatten.map fun p => ⟨wrap L (p.x + t.x), wrap L (p.y + t.y), wrap L (p.z + t.z)⟩)) :
    (rows L np' sm' D').Perm ((rows L np sm D).map fun x => (⟨wrap L (x.1.x + t.x), wrap L (x.1.y + t.y), wrap L (x.1.z + t.z)⟩, x.2)) :=
  density_isometry (f := fun p => ⟨wrap L (p.x + t.x), wrap L (p.y + t.y), wrap L (p.z + t.z)⟩) h h' (fun p q a b => by
    unfold sep2
    dsimp only
    rw [axis_moved _ _ _ _ a.1 b.1, axis_moved _ _ _ _ a.2.1 b.2.1, axis_moved _ _ _ _ a.2.2 b.2.2]) hp

/-- **C147** Mirror images along the first axis. -/
theorem density_mirror (h : Fits L np sm D) (h' : Fits L np' sm' D') (hp : D'.flatten.Perm (D.flatten.map fun p => ⟨wrap L (-p.x), p.y, p.z⟩)) :
    (rows L np' sm' D').Perm ((rows L np sm D).map fun x => (⟨wrap L (-x.1.x), x.1.y, x.1.z⟩, x.2)) :=
  density_isometry (f := fun p => ⟨wrap L (-p.x), p.y, p.z⟩) h h' (fun p q a b => by
    unfold sep2
    dsimp only
    rw [axis_mirrored _ _ _ a.1 b.1]) hp

/-- **C147** Axes: all permutations follow from these two. -/
theorem density_axes (h : Fits L np sm D) (h' : Fits L np' sm' D') :
    (D'.flatten.Perm (D.flatten.map fun p => ⟨p.y, p.x, p.z⟩) → (rows L np' sm' D').Perm ((rows L np sm D).map fun x => (⟨x.1.y, x.1.x, x.1.z⟩, x.2))) ∧
    (D'.flatten.Perm (D.flatten.map fun p => ⟨p.y, p.z, p.x⟩) → (rows L np' sm' D').Perm ((rows L np sm D).map fun x => (⟨x.1.y, x.1.z, x.1.x⟩, x.2))) := by
  refine ⟨fun hp => density_isometry (f := fun p => ⟨p.y, p.x, p.z⟩) h h' (fun p q _ _ => ?_) hp, fun hp => density_isometry (f := fun p => ⟨p.y, p.z, p.x⟩) h h' (fun p q _ _ => ?_) hp⟩
  · unfold sep2; dsimp only; ring
  · unfold sep2; dsimp only; ring

/-- **C147** Units: the density is that of a number per volume. -/
theorem density_units (hu : 0 < u) (h : Fits L np sm D) (h' : Fits (u * L) np' sm' D') (hp : D'.flatten.Perm (D.flatten.map fun p => ⟨u * p.x, u * p.y, u * p.z⟩)) :
    (rows (u * L) np' sm' D').Perm ((rows L np sm D).map fun x => (⟨u * x.1.x, u * x.1.y, u * x.1.z⟩, x.2.map (· / (u ^ 3) ^ 2))) := by
  refine density_same (f := fun p => ⟨u * p.x, u * p.y, u * p.z⟩) hu h h' (fun p q _ _ => ?_) hp
  have u2 : (0 : ℚ) ≤ u ^ 2 := by positivity
  have key : ∀ a b : ℚ, axisSq (u * L) (u * a) (u * b) = u ^ 2 * axisSq L a b := by
    intro a b
    unfold axisSq
    rw [mul_min_of_nonneg _ _ u2, mul_min_of_nonneg _ _ u2]
    congr 1
    · ring
    · congr 1 <;> ring
  unfold sep2
  dsimp only
  rw [key, key, key]
  ring

/-- The order of densities: `none` is infinite. -/
def NotAbove : Option ℚ → Option ℚ → Prop
  | _, none => True
  | none, some _ => False
  | some a, some b => a ≤ b

theorem sep_nonneg (p q : Pos) : 0 ≤ sep2 ⟨L, L, L⟩ p q :=
  add_nonneg (add_nonneg (axisSq_nonneg _ _ _) (axisSq_nonneg _ _ _)) (axisSq_nonneg _ _ _)

theorem trueD_nonneg {p : Pos} {t : ℚ} (h : trueD L D p = some t) : 0 ≤ t := by
  have h8 := (trueD_spec L D p t).mp ⟨t, h, le_refl _⟩
  obtain ⟨q, _, hq⟩ := List.countP_pos_iff.mp (by omega : 0 < D.flatten.countP fun q => decide (sep2 ⟨L, L, L⟩ p q ≤ t))
  exact le_trans (sep_nonneg p q) (by simpa using hq)

/-- **C147** More particles: no density becomes lower. -/
theorem density_more (h : Fits L np sm D) (h' : Fits L np' sm' D') {E : List Pos} (hp : D'.flatten.Perm (D.flatten ++ E)) :
    ∃ g g' : Pos → Option ℚ, run L np sm D = D.map (·.map g) ∧ run L np' sm' D' = D'.map (·.map g') ∧ ∀ p ∈ D.flatten, NotAbove (g p) (g' p) := by
  refine ⟨_, _, h.value, h'.value, fun p _ => ?_⟩
  have hle : ∀ x, Le (trueD L D p) x → Le (trueD L D' p) x := by
    intro x
    rw [trueD_spec, trueD_spec, hp.countP_eq, List.countP_append]
    omega
  unfold Kd.value
  cases ht : trueD L D p with
  | none =>
    cases ht' : trueD L D' p with
    | none => exact le_refl (0 : ℚ)
    | some t' =>
      have h0 := trueD_nonneg ht'
      dsimp only
      split
      · trivial
      · show (0 : ℚ) ≤ 1 / t' ^ 3
        positivity
  | some t =>
    obtain ⟨t', ht', htt⟩ := hle t ⟨t, ht, le_refl _⟩
    have h0 := trueD_nonneg ht'
    rw [ht']
    dsimp only
    by_cases e : t' = 0
    · rw [if_pos e]
      split <;> trivial
    · have hpos : 0 < t' := lt_of_le_of_ne h0 (Ne.symm e)
      rw [if_neg e, if_neg (by linarith)]
      show 1 / t ^ 3 ≤ 1 / t' ^ 3
      exact one_div_le_one_div_of_le (by positivity) (pow_le_pow_left₀ h0 htt 3)

theorem axis_zero (L a b : ℚ) (ha : 0 ≤ a ∧ a < L) (hb : 0 ≤ b ∧ b < L) (h : axisSq L a b ≤ 0) : a = b := by
  obtain ⟨⟨k, hk⟩, _⟩ := BoxTpcf.axisSq_least L a b ha hb
  have h0 : (a - b + k * L) ^ 2 = 0 := le_antisymm (by rw [← hk]; exact h) (sq_nonneg _)
  have h1 : a - b + k * L = 0 := by simpa using h0
  have hL : 0 < L := lt_of_le_of_lt ha.1 ha.2
  have hk0 : k = 0 := by
    rcases lt_trichotomy k 0 with hk | hk | hk
    · have : (k : ℚ) ≤ -1 := by exact_mod_cast Int.le_sub_one_of_lt hk
      nlinarith [ha.1, ha.2, hb.1, hb.2]
    · exact hk
    · have : (1 : ℚ) ≤ k := by exact_mod_cast hk
      nlinarith [ha.1, ha.2, hb.1, hb.2]
  rw [hk0] at h1
  push_cast at h1
  linarith

/-- **C147** A density is infinite exactly if eight particles are at the same position, and zero exactly if there are fewer than eight. -/
theorem density_infinite (h : Fits L np sm D) : ∃ g : Pos → Option ℚ, run L np sm D = D.map (·.map g) ∧
    ∀ p ∈ D.flatten, (g p = none ↔ 8 ≤ D.flatten.count p) ∧ (g p = some 0 ↔ D.flatten.length < 8) := by
  refine ⟨_, h.value, fun p hp => ?_⟩
  have hc : Le (trueD L D p) 0 ↔ 8 ≤ D.flatten.count p := by
    rw [trueD_spec, List.count]
    have : D.flatten.countP (fun q => decide (sep2 ⟨L, L, L⟩ p q ≤ 0)) = D.flatten.countP (· == p) := by
      apply List.countP_congr
      intro q hq
      simp only [decide_eq_true_eq, beq_iff_eq]
      constructor
      · intro hs
        have hx := axisSq_nonneg L p.x q.x
        have hy := axisSq_nonneg L p.y q.y
        have hz := axisSq_nonneg L p.z q.z
        unfold sep2 at hs
        dsimp only at hs
        have a := h.inside p hp
        have b := h.inside q hq
        have e1 := axis_zero L p.x q.x a.1 b.1 (by linarith)
        have e2 := axis_zero L p.y q.y a.2.1 b.2.1 (by linarith)
        have e3 := axis_zero L p.z q.z a.2.2 b.2.2 (by linarith)
        cases p
        cases q
        simp only at e1 e2 e3
        rw [e1, e2, e3]
      · rintro rfl
        rw [sep_self]
    rw [this]
  have hn : trueD L D p = none ↔ D.flatten.length < 8 := by
    unfold trueD kth
    rw [List.getElem?_eq_none_iff, List.length_insertionSort, List.length_map]
    omega
  unfold Kd.value
  cases ht : trueD L D p with
  | none =>
    refine ⟨?_, fun _ => hn.mp ht, fun _ => rfl⟩
    rw [← hc, ht]
    simp [Le]
  | some t =>
    have h0 := trueD_nonneg ht
    have hlen : ¬ D.flatten.length < 8 := by rw [← hn, ht]; simp
    rw [← hc, ht]
    by_cases e : t = 0
    · refine ⟨by simp [e, Le], ⟨fun k => by simp [e] at k, fun k => absurd k hlen⟩⟩
    · have hpos : 0 < t := lt_of_le_of_ne h0 (Ne.symm e)
      refine ⟨?_, ?_⟩
      · simp only [if_neg e, reduceCtorEq, false_iff]
        rintro ⟨d, hd, hd0⟩
        cases hd
        linarith
      · simp only [if_neg e, Option.some.injEq, hlen, iff_false]
        positivity

end

/-! ### Cases -/

instance (L : ℚ) (p : Pos) : Decidable (InBox L p) := by unfold InBox; infer_instance

theorem corners_fits : Fits 1 (2, 1, 1) 2 [corners 1, []] := by
  refine ⟨by decide, by decide, by decide, by norm_num, by decide +kernel, .inr ?_⟩
  intro p hp
  have : ∀ p ∈ corners 1, trueD 1 [corners 1, []] p = some (3 / 4) := by decide +kernel
  exact ⟨3 / 4, this p (by simpa using hp), by norm_num⟩

theorem corners_alone : Fits 1 (1, 1, 1) (1 / 9) [[], (corners 1).reverse] :=
  ⟨by decide, by decide, by decide, by norm_num, by decide +kernel, .inl rfl⟩

/-- Other ranks, order, domains and margin. -/
example : (rows 1 (1, 1, 1) (1 / 9) [[], (corners 1).reverse]).Perm (rows 1 (2, 1, 1) 2 [corners 1, []]) :=
  density_layout corners_fits corners_alone (by simpa using List.reverse_perm _)

/-- A translation by half the side. -/
example : (rows 1 (1, 1, 1) 0 [corners 1]).Perm ((rows 1 (2, 1, 1) 2 [corners 1, []]).map fun x => (⟨wrap 1 (x.1.x + 1 / 2), wrap 1 (x.1.y + 0), wrap 1 (x.1.z + 0)⟩, x.2)) :=
  density_shift ⟨1 / 2, 0, 0⟩ corners_fits ⟨by decide, by decide, by decide, le_refl _, by decide +kernel, .inl rfl⟩ (by decide +kernel)

/-- A box of side 10. -/
example : (rows (10 * 1) (1, 1, 1) (1 / 5) [corners 10]).Perm ((rows 1 (2, 1, 1) 2 [corners 1, []]).map fun x => (⟨10 * x.1.x, 10 * x.1.y, 10 * x.1.z⟩, x.2.map (· / (10 ^ 3) ^ 2))) :=
  density_units (u := 10) (by norm_num) corners_fits ⟨by decide, by decide, by decide, by norm_num, by decide +kernel, .inl rfl⟩ (by decide +kernel)

/-- The corners moved and stretched, so that no axis is like another: mirror images and axes. -/
def skew : List Pos := (corners 1).map fun p => ⟨p.x / 2, p.y / 3, p.z⟩

theorem skew_fits {E : List (List Pos)} (h : ∀ p ∈ E.flatten, InBox 1 p) : Fits 1 (1, 1, 1) 0 E := ⟨by decide, by decide, by decide, le_refl _, h, .inl rfl⟩

example : (rows 1 (1, 1, 1) 0 [skew.map fun p => ⟨wrap 1 (-p.x), p.y, p.z⟩]).Perm ((rows 1 (1, 1, 1) 0 [skew]).map fun x => (⟨wrap 1 (-x.1.x), x.1.y, x.1.z⟩, x.2)) :=
  density_mirror (skew_fits (by decide +kernel)) (skew_fits (by decide +kernel)) (by simp)

example : (rows 1 (1, 1, 1) 0 [skew.map fun p => ⟨p.y, p.z, p.x⟩]).Perm ((rows 1 (1, 1, 1) 0 [skew]).map fun x => (⟨x.1.y, x.1.z, x.1.x⟩, x.2)) :=
  (density_axes (skew_fits (by decide +kernel)) (skew_fits (by decide +kernel))).2 (by simp)

/-- More particles. -/
example : ∃ g g' : Pos → Option ℚ, run 1 (2, 1, 1) 2 [corners 1, []] = [(corners 1).map g, []] ∧ run 1 (1, 1, 1) 0 [corners 1, skew] = [(corners 1).map g', skew.map g'] ∧
    ∀ p ∈ corners 1, NotAbove (g p) (g' p) := by
  obtain ⟨g, g', h1, h2, h3⟩ := density_more corners_fits (skew_fits (E := [corners 1, skew]) (by decide +kernel)) (E := skew) (by simp)
  exact ⟨g, g', h1, h2, fun p hp => h3 p (by simpa using hp)⟩

/-- Eight more particles at the centre have an infinite density. -/
example : ∃ g : Pos → Option ℚ, run 1 (1, 1, 1) 1 [corners 1, List.replicate 8 ⟨1 / 2, 1 / 2, 1 / 2⟩] = [(corners 1).map g, (List.replicate 8 ⟨1 / 2, 1 / 2, 1 / 2⟩).map g] ∧
    g ⟨1 / 2, 1 / 2, 1 / 2⟩ = none ∧ g ⟨1 / 4, 1 / 4, 1 / 4⟩ ≠ none := by
  obtain ⟨g, h1, h2⟩ := density_infinite (L := 1) (np := (1, 1, 1)) (sm := 1) (D := [corners 1, List.replicate 8 ⟨1 / 2, 1 / 2, 1 / 2⟩])
    ⟨by decide, by decide, by decide, by norm_num, by decide +kernel, .inl rfl⟩
  refine ⟨g, h1, (h2 _ (by decide +kernel)).1.mpr (by decide +kernel), fun h => ?_⟩
  have := (h2 _ (by decide +kernel)).1.mp h
  revert this
  decide +kernel

end NBK.Kd
