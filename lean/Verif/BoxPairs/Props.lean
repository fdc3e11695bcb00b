import Verif.BoxPairs.Model
import Verif.SurvPairs.Props
import Verif.Sky.Props
import Mathlib.Tactic.IntervalCases

set_option linter.unusedSimpArgs false
/-!
# C100: line of sight, box and angular mode of the pair counts in a simulation box
-/
noncomputable section
namespace NBK.BoxPairs
open Sky (Vec)

/-! ## The line of sight -/

/-- The documented values: the names of the axes, their numbers, also negative. -/
theorem los_documented :
    parseLos (.str ['x']) = .ok (0, true) ∧ parseLos (.str ['y']) = .ok (1, true) ∧ parseLos (.str ['z']) = .ok (2, true) ∧
    ∀ i : Int, (0 ≤ i → i ≤ 2 → parseLos (.int i) = .ok (i, true)) ∧ (-3 ≤ i → i < 0 → parseLos (.int i) = .ok (i + 3, true)) ∧
      (i < -3 ∨ 2 < i → parseLos (.int i) = .error .valueError) := by
  refine ⟨by decide, by decide, by decide, ?_⟩
  intro i
  refine ⟨?_, ?_, ?_⟩
  · intro h1 h2; interval_cases i <;> rfl
  · intro h1 h2; interval_cases i <;> rfl
  · intro h
    simp only [parseLos]
    rw [if_neg]
    simp only [List.mem_cons, List.not_mem_nil, or_false, not_or]
    split <;> omega

/-- The strings that are accepted: all parts of "xyz", not only the names of the axes. -/
theorem los_strings_partial (s : List Char) :
    (∃ r, parseLos (.str s) = .ok r) ↔
      s ∈ [['x'], ['y'], ['z'], [], ['x', 'y'], ['y', 'z'], ['x', 'y', 'z']] := by
  constructor
  · rintro ⟨r, h⟩
    simp only [parseLos] at h
    split at h
    · cases h
    · rename_i i hi
      unfold findIn at hi
      have hm := List.mem_range.1 (List.mem_of_find?_eq_some hi)
      have hp := List.find?_some hi
      rw [List.isPrefixOf_iff_prefix] at hp
      simp only [List.length_cons, List.length_nil] at hm
      have key : ∀ (l s : List Char), s <+: l → s ∈ l.inits := fun l s h => (List.mem_inits s l).2 h
      have := key _ _ hp
      interval_cases i <;> simp [List.inits] at this ⊢ <;> tauto
  · intro h
    simp only [List.mem_cons, List.not_mem_nil, or_false] at h
    rcases h with rfl | rfl | rfl | rfl | rfl | rfl | rfl <;> exact ⟨_, rfl⟩

/-- C100 fails for strings: two axes, or no axis at all, are taken as x. -/
theorem los_two_axes : parseLos (.str ['x', 'y']) = .ok (0, true) ∧ parseLos (.str []) = .ok (0, true) ∧
    parseLos (.str ['y', 'z']) = .ok (1, true) := by decide

/-- C100 fails for floats: they pass the checks, and are an error when the coordinates are reordered. -/
theorem los_float (v : Vec) : parseLos (.float (some 2)) = .ok (2, false) ∧ reorder (2, false) v = .error .indexError :=
  ⟨rfl, rfl⟩

/-- The coordinates passed to Corrfunc are a permutation with the line of sight last: the separation is the same, and so is
its component along the line of sight. -/
theorem reorder_spec (los : Int) (h0 : 0 ≤ los) (h2 : los ≤ 2) (v w : Vec) :
    ∃ a1 a2 a3 b1 b2 b3, reorder (los, true) v = .ok [a1, a2, a3] ∧ reorder (los, true) w = .ok [b1, b2, b3] ∧
      a3 = (if los = 0 then v.x else if los = 1 then v.y else v.z) ∧
      [a1, a2, a3].Perm [v.x, v.y, v.z] ∧
      (a1 - b1) ^ 2 + (a2 - b2) ^ 2 + (a3 - b3) ^ 2 = (v.x - w.x) ^ 2 + (v.y - w.y) ^ 2 + (v.z - w.z) ^ 2 := by
  interval_cases los
  · refine ⟨v.y, v.z, v.x, w.y, w.z, w.x, rfl, rfl, rfl, ?_, by ring⟩
    exact (List.perm_append_comm (l₁ := [v.y, v.z]) (l₂ := [v.x]))
  · refine ⟨v.x, v.z, v.y, w.x, w.z, w.y, rfl, rfl, rfl, ?_, by ring⟩
    exact .cons _ (.swap _ _ _)
  · exact ⟨v.x, v.y, v.z, w.x, w.y, w.z, rfl, rfl, rfl, .refl _, rfl⟩

/-! ## The box -/

/-- The box that is used: not zero, the argument if there is one, otherwise that of the first source; the same as that of
both sources when both have one. -/
theorem boxSize_partial (b1 b2 arg : Option Vec) (box : Vec) (h : boxSize b1 b2 arg = .ok box) :
    box ≠ ⟨0, 0, 0⟩ ∧ (∀ a, arg = some a → box = a) ∧ (arg = none → b1 = some box) ∧
      (∀ x y, b1 = some x → b2 = some y → x = box ∧ y = box) := by
  unfold boxSize at h
  simp only at h
  split at h
  · cases h
  · rename_i hz
    have e : box = arg.getD (b1.getD ⟨0, 0, 0⟩) ∧ (∀ x y, b1 = some x → b2 = some y → x = box ∧ y = box) := by
      split at h
      · split at h
        · cases h
        · rename_i h1
          split at h
          · cases h
          · rename_i h2
            cases h
            push Not at h1 h2
            refine ⟨rfl, ?_⟩
            intro x y hx hy
            cases hx; cases hy
            exact ⟨h2, h1 ▸ h2⟩
      · rename_i hno
        cases h
        refine ⟨rfl, ?_⟩
        intro x y hx hy
        exact absurd hy (by intro; exact hno x y hx hy)
    rw [e.1]
    refine ⟨hz, ?_, ?_, ?_⟩
    · rintro a rfl; rfl
    · rintro rfl
      cases b1 with
      | none => simp at hz
      | some b => rfl
    · rw [← e.1]; exact e.2

/-- Sources which agree with each other and with the argument are accepted. -/
theorem boxSize_ok (b : Vec) (hb : b ≠ ⟨0, 0, 0⟩) (b1 b2 arg : Option Vec) (h1 : ∀ x, b1 = some x → x = b)
    (h2 : ∀ x, b2 = some x → x = b) (h3 : ∀ x, arg = some x → x = b) (h : arg.isSome ∨ b1.isSome) :
    boxSize b1 b2 arg = .ok b := by
  have e : arg.getD (b1.getD ⟨0, 0, 0⟩) = b := by
    cases arg with
    | some a => exact h3 a rfl
    | none =>
      cases b1 with
      | some a => exact h1 a rfl
      | none => simp at h
  unfold boxSize
  simp only
  rw [e, if_neg hb]
  clear e h h3
  cases b1 with
  | none => rfl
  | some x =>
    cases b2 with
    | none => rfl
    | some y =>
      have hx := h1 x rfl
      have hy := h2 y rfl
      subst hx
      simp only
      rw [if_neg (by rw [hy]; simp), if_neg (by simp)]

/-- C100 fails when a source has no BoxSize: a different box of the other source, or of the argument, goes unnoticed. -/
theorem boxSize_unchecked :
    boxSize none (some ⟨2, 2, 2⟩) (some ⟨1, 1, 1⟩) = .ok ⟨1, 1, 1⟩ ∧ boxSize (some ⟨2, 2, 2⟩) none (some ⟨1, 1, 1⟩) = .ok ⟨1, 1, 1⟩ := by
  have h : (⟨1, 1, 1⟩ : Vec) ≠ ⟨0, 0, 0⟩ := by simp
  constructor <;> simp [boxSize]

/-! ## The observer of the angular mode -/

/-- All positions are moved by the same vector, into the box around the origin. -/
theorem shift_partial (box : Vec) (D D' : List (List Vec)) (h : shift box D = .ok D') :
    Inside ((-0.5 : ℝ) • box) ((0.5 : ℝ) • box) D' ∧
      ((D' = D ∧ ¬ Inside ⟨0, 0, 0⟩ box D) ∨ D' = D.map fun l => l.map fun p => p - (0.5 : ℝ) • box) := by
  unfold shift at h
  split at h
  · rename_i hin
    cases h
    refine ⟨?_, .inr rfl⟩
    intro p hp
    rw [← List.map_flatten] at hp
    obtain ⟨q, hq, rfl⟩ := List.mem_map.1 hp
    obtain ⟨⟨a, b, c⟩, d, e, f⟩ := hin q hq
    simp only [Sky.sub_x, Sky.sub_y, Sky.sub_z, Sky.smul_x, Sky.smul_y, Sky.smul_z]
    refine ⟨⟨?_, ?_, ?_⟩, ?_, ?_, ?_⟩ <;> linarith
  · rename_i hno
    split at h
    · rename_i hin
      cases h
      exact ⟨hin, .inl ⟨rfl, hno⟩⟩
    · cases h

/-- Positions strictly inside either box are accepted. -/
theorem shift_ok (box : Vec) (D : List (List Vec))
    (h : Inside ⟨0, 0, 0⟩ box D ∨ Inside ((-0.5 : ℝ) • box) ((0.5 : ℝ) • box) D) : ∃ D', shift box D = .ok D' := by
  unfold shift
  split
  · exact ⟨_, rfl⟩
  · rename_i h1
    rw [if_pos (h.resolve_left h1)]
    exact ⟨_, rfl⟩

/-- C100 fails on the boundary: a position at the corner of the box, allowed by the documentation, is an error. -/
theorem shift_boundary : shift ⟨2, 2, 2⟩ [[⟨0, 0, 0⟩, ⟨1.5, 1.5, 1.5⟩]] = .error .valueError := by
  unfold shift
  rw [if_neg, if_neg]
  · intro h
    have := (h ⟨1.5, 1.5, 1.5⟩ (by simp)).2.1
    simp only [Sky.smul_x] at this
    norm_num at this
  · intro h
    have := (h ⟨0, 0, 0⟩ (by simp)).1.1
    norm_num at this

/-- C100 fails for a centered catalog which happens to have positive coordinates only: its observer is moved away. -/
theorem shift_centered : Inside ((-0.5 : ℝ) • (⟨2, 2, 2⟩ : Vec)) ((0.5 : ℝ) • (⟨2, 2, 2⟩ : Vec)) [[⟨0.5, 0.5, 0.5⟩]] ∧
    shift ⟨2, 2, 2⟩ [[⟨0.5, 0.5, 0.5⟩]] = .ok [[⟨-0.5, -0.5, -0.5⟩]] := by
  constructor
  · intro p hp
    simp only [List.flatten_cons, List.flatten_nil, List.append_nil, List.mem_singleton] at hp
    subst hp
    simp only [Sky.smul_x, Sky.smul_y, Sky.smul_z]
    norm_num
  · unfold shift
    rw [if_pos]
    · simp only [List.map_cons, List.map_nil, Except.ok.injEq, List.cons.injEq, and_true]
      ext <;> simp only [Sky.sub_x, Sky.sub_y, Sky.sub_z, Sky.smul_x, Sky.smul_y, Sky.smul_z] <;> norm_num
    · intro p hp
      simp only [List.flatten_cons, List.flatten_nil, List.append_nil, List.mem_singleton] at hp
      subst hp
      norm_num

theorem lookup_setCol {β : Type} (cols : List (String × β)) (name : String) (v : β) (n : String) :
    (setCol cols name v).lookup n = if n = name then some v else cols.lookup n := by
  have hmap : ∀ l : List (String × β), (l.map fun c => if c.1 == name then (name, v) else c).lookup n =
      if n = name then (if l.any fun c => c.1 == name then some v else none) else l.lookup n := by
    intro l
    induction l with
    | nil => simp
    | cons c l ih =>
      obtain ⟨k, x⟩ := c
      simp only [List.map_cons, List.any_cons]
      by_cases hk : k = name
      · subst hk
        by_cases hn : n = k
        · subst hn; simp
        · simp only [beq_self_eq_true, if_true, List.lookup_cons, ih, hn, if_false]
          have : (n == k) = false := by simpa using hn
          rw [this]
      · have hk' : (k == name) = false := by simpa using hk
        simp only [hk', Bool.false_eq_true, if_false, Bool.false_or, List.lookup_cons, ih]
        by_cases hn : n = name
        · subst hn
          have : (n == k) = false := by simpa using Ne.symm hk
          simp [this]
        · simp [hn]
  have happ : ∀ l : List (String × β), (l ++ [(name, v)]).lookup n =
      match l.lookup n with
      | some x => some x
      | none => if n = name then some v else none := by
    intro l
    induction l with
    | nil =>
      simp only [List.nil_append, List.lookup_cons, List.lookup_nil]
      by_cases hn : n = name
      · simp [hn]
      · have : (n == name) = false := by simpa using hn
        simp [this, hn]
    | cons c l ih =>
      obtain ⟨k, x⟩ := c
      simp only [List.cons_append, List.lookup_cons]
      cases n == k
      · exact ih
      · rfl
  unfold setCol
  split
  · rename_i h
    rw [hmap]
    simp [h]
  · rename_i h
    rw [happ]
    have hno : ∀ l : List (String × β), ¬ (l.any (fun c => c.1 == name) = true) → l.lookup name = none := by
      intro l
      induction l with
      | nil => intro _; rfl
      | cons c l ih =>
        intro hl
        simp only [List.any_cons, Bool.or_eq_true, not_or] at hl
        have : (name == c.1) = false := by
          have := hl.1
          simp only [beq_iff_eq] at this
          simpa using Ne.symm this
        rw [List.lookup_cons, this]
        exact ih hl.2
    by_cases hn : n = name
    · subst hn
      rw [hno cols h]
    · simp only [hn, if_false]
      cases cols.lookup n <;> rfl

/-- The angular mode changes the catalog of the user: it has columns `ra` and `dec` afterwards, whatever they were before.
The other columns are the same. -/
theorem catalog_changed {β : Type} (cols : List (String × β)) (ra dec : β) :
    (addSky cols ra dec).lookup "ra" = some ra ∧ (addSky cols ra dec).lookup "dec" = some dec ∧
      ∀ n, n ≠ "ra" → n ≠ "dec" → (addSky cols ra dec).lookup n = cols.lookup n := by
  unfold addSky
  refine ⟨?_, ?_, ?_⟩
  · rw [lookup_setCol, lookup_setCol]; simp
  · rw [lookup_setCol]; simp
  · intro n h1 h2
    rw [lookup_setCol, lookup_setCol, if_neg h2, if_neg h1]

/-- C100 fails: a column `ra` of the user is overwritten. -/
theorem column_lost : (addSky [("Position", 0), ("ra", 1)] 2 3).lookup "ra" = some 2 := by decide

/-! ## Counts of the angular mode -/

theorem sky_unit (p : Vec) (w : ℚ) : p.norm • SurvPairs.cartesian none (skyObj p w) = p := by
  have h := Sky.position_inverse p ⟨0, 0, 0⟩
  rw [Sky.sub_zero_pos] at h
  have hz : ∀ v : Vec, v + (⟨0, 0, 0⟩ : Vec) = v := by
    intro v; ext <;> simp [Sky.add_x, Sky.add_y, Sky.add_z]
  rw [hz] at h
  exact h

theorem norm_pos {p : Vec} (hp : p ≠ ⟨0, 0, 0⟩) : 0 < p.norm := by
  have h0 : 0 ≤ p.norm := Real.sqrt_nonneg _
  rcases h0.lt_or_eq with h | h
  · exact h
  · exfalso
    have := SurvPairs.norm_sq p
    rw [← h] at this
    apply hp
    have hx : p.x = 0 := by nlinarith [sq_nonneg p.x, sq_nonneg p.y, sq_nonneg p.z]
    have hy : p.y = 0 := by nlinarith [sq_nonneg p.x, sq_nonneg p.y, sq_nonneg p.z]
    have hz : p.z = 0 := by nlinarith [sq_nonneg p.x, sq_nonneg p.y, sq_nonneg p.z]
    ext <;> assumption

/-- The angle between the sky coordinates of two positions is the angle between the positions. -/
theorem angle_sky {p r : Vec} (hp : p ≠ ⟨0, 0, 0⟩) (hr : r ≠ ⟨0, 0, 0⟩) (w u : ℚ) :
    SurvPairs.angle (SurvPairs.cartesian none (skyObj p w)) (SurvPairs.cartesian none (skyObj r u)) = SurvPairs.angle p r := by
  have n1 := SurvPairs.unit_norm (skyObj p w)
  have n2 := SurvPairs.unit_norm (skyObj r u)
  have e1 := sky_unit p w
  have e2 := sky_unit r u
  have p1 := norm_pos hp
  have p2 := norm_pos hr
  generalize SurvPairs.cartesian none (skyObj p w) = a at *
  generalize SurvPairs.cartesian none (skyObj r u) = c at *
  unfold SurvPairs.angle
  rw [n1, n2]
  congr 2
  have : p.dot r = p.norm * r.norm * a.dot c := by
    conv_lhs => rw [← e1, ← e2]
    simp only [Vec.dot, Sky.smul_x, Sky.smul_y, Sky.smul_z]
    ring
  rw [this]
  field_simp

/-- The positions and weights of a distributed catalog. -/
def rows (pos : List (List Vec)) (w : List (List ℚ)) : List (Vec × ℚ) := (List.zipWith List.zip pos w).flatten

theorem skyObjs_flatten (pos : List (List Vec)) (w : List (List ℚ)) :
    (skyObjs pos w).flatten = (rows pos w).map fun r => skyObj r.1 r.2 := by
  unfold skyObjs rows
  rw [List.map_flatten]
  congr 1
  induction pos generalizing w with
  | nil => rfl
  | cons p pos ih =>
    cases w with
    | nil => rfl
    | cons w ws =>
      simp only [List.zipWith_cons_cons, List.map_cons, ih]
      congr 1
      rw [List.zip, List.map_zipWith]

theorem rows_ne (pos : List (List Vec)) (w : List (List ℚ)) (h : ∀ p ∈ pos.flatten, p ≠ ⟨0, 0, 0⟩) :
    ∀ r ∈ rows pos w, r.1 ≠ ⟨0, 0, 0⟩ := by
  intro r hr
  apply h
  simp only [rows, List.mem_flatten] at hr ⊢
  obtain ⟨l, hl, hrl⟩ := hr
  obtain ⟨i, hi, e⟩ := List.getElem_of_mem hl
  rw [List.getElem_zipWith] at e
  simp only [List.length_zipWith] at hi
  refine ⟨pos[i], List.getElem_mem _, ?_⟩
  rw [← e] at hrl
  obtain ⟨a, b⟩ := r
  exact (List.of_mem_zip hrl).1

/-- The counts of the angular mode: those of the angles between all pairs of positions, seen from the centre of the box (or
from the origin, for positions around it), when no object is at the observer.  `second'` is the second catalog after it has
been moved. -/
theorem angular_counts (box : Vec) (edges : List ℝ) (np : Nat → Nat) (rank : Nat → Nat → Nat → Nat)
    (sepAvg : SurvPairs.Obj → SurvPairs.Obj → ℚ) (q : ℚ) (sp : Bool) (tree : Pairs.Tree) (pos : List (List Vec)) (w : List (List ℚ))
    (second second' : Option (List (List Vec) × List (List ℚ)))
    (hlen : w.length = pos.length) (pos' : List (List Vec)) (hshift : shift box pos = .ok pos')
    (hsecond : second.map (·.2) = second'.map (·.2))
    (hshift2 : ∀ c ∈ second, ∀ c' ∈ second', shift box c.1 = .ok c'.1)
    (hobs : ∀ p ∈ pos'.flatten, p ≠ ⟨0, 0, 0⟩) (hobs2 : ∀ c ∈ second', ∀ p ∈ c.1.flatten, p ≠ ⟨0, 0, 0⟩)
    (hang : SurvPairs.maxEdge edges ≤ 180)
    (htree : tree.ranks.Perm (List.range pos.length)) (hcells : ∀ axis, 0 < np axis)
    (hrank : ∀ i j k, i < 2 * np 0 → j < 2 * np 1 → k < 2 * np 2 → rank i j k < pos.length) :
    let R1 := rows pos' w
    let R2 := (second'.map fun c => rows c.1 c.2).getD R1
    ∃ out, angularPairs box edges np rank sepAvg (some q) sp tree pos w second = .ok (.ok out) ∧
      out.shape = [edges.length - 1] ∧
      ∀ b < edges.length - 1, ∃ o, out.rows[b]? = some o ∧
        o.npairs = (R1.map fun a => R2.countP fun c => SurvPairs.sepBin edges (SurvPairs.angle a.1 c.1) = some b).sum ∧
        o.wnpairs = some (R1.map fun a => (R2.map fun c =>
          if SurvPairs.sepBin edges (SurvPairs.angle a.1 c.1) = some b then a.2 * c.2 else 0).sum).sum := by
  intro R1 R2
  have hl' : pos'.length = pos.length := by
    rcases (shift_partial box pos pos' hshift).2 with h | h
    · rw [h.1]
    · rw [h, List.length_map]
  have hsl : (skyObjs pos' w).length = pos.length := by simp [skyObjs, hl', hlen]
  have key := SurvPairs.survey_counts .angular edges none 2 np rank sepAvg q sp tree (skyObjs pos' w)
    (second'.map fun c => skyObjs c.1 c.2)
    (by intro h; cases h) (fun _ => hang) (by intro m h; cases h) (by rw [hsl]; exact htree)
    (fun axis => by have := hcells axis; omega) (by rw [hsl]; exact hrank)
  obtain ⟨out, hout, hs, _, hrow⟩ := key
  have hmem : ∀ r ∈ R1, r.1 ≠ ⟨0, 0, 0⟩ := rows_ne pos' w hobs
  have hmem2 : ∀ r ∈ R2, r.1 ≠ ⟨0, 0, 0⟩ := by
    cases second' with
    | none => exact hmem
    | some c => exact rows_ne c.1 c.2 (hobs2 c rfl)
  have hR2 : ((second'.map fun c => skyObjs c.1 c.2).getD (skyObjs pos' w)).flatten = R2.map fun r => skyObj r.1 r.2 := by
    cases second' with
    | none => exact skyObjs_flatten pos' w
    | some c => exact skyObjs_flatten c.1 c.2
  refine ⟨out, ?_, hs, ?_⟩
  · unfold angularPairs
    rw [hshift]
    cases second with
    | none =>
      cases second' with
      | none => exact congrArg Except.ok hout
      | some c => simp at hsecond
    | some c =>
      cases second' with
      | none => simp at hsecond
      | some c' =>
        obtain ⟨p2, w2⟩ := c
        obtain ⟨p2', w2'⟩ := c'
        simp only [Option.map_some, Option.some.injEq] at hsecond
        subst hsecond
        have := hshift2 (p2, w2) rfl (p2', w2) rfl
        simp only at this
        simp only [this]
        exact congrArg Except.ok hout
  · intro b hb
    obtain ⟨o, ho, hn, hw, _⟩ := hrow b (by simpa [SurvPairs.Mode.second] using hb)
    refine ⟨o, ho, ?_, ?_⟩
    · rw [hn, hR2]
      simp only [skyObjs_flatten, List.map_map, List.countP_map]
      congr 1
      apply List.map_congr_left
      intro a ha
      simp only [Function.comp_apply]
      apply List.countP_congr
      intro c hc
      simp only [Function.comp_apply, SurvPairs.binOf, SurvPairs.Mode.isAngular, if_true, decide_eq_true_eq]
      rw [angle_sky (hmem a ha) (hmem2 c hc)]
    · rw [hw, hR2]
      simp only [skyObjs_flatten, List.map_map]
      congr 2
      apply List.map_congr_left
      intro a ha
      simp only [Function.comp_apply]
      congr 1
      apply List.map_congr_left
      intro c hc
      simp only [Function.comp_apply, SurvPairs.binOf, SurvPairs.Mode.isAngular, if_true]
      rw [angle_sky (hmem a ha) (hmem2 c hc)]
      rfl

/-- C100 fails for two catalogs: each is moved on its own.  Two catalogs around the origin, the second of which has positive
coordinates only, end up with different observers: an object that is in both has two different positions. -/
theorem observers_differ :
    shift ⟨2, 2, 2⟩ [[⟨0.5, 0.5, 0.5⟩, ⟨-0.5, 0.5, 0.5⟩]] = .ok [[⟨0.5, 0.5, 0.5⟩, ⟨-0.5, 0.5, 0.5⟩]] ∧
    shift ⟨2, 2, 2⟩ [[⟨0.5, 0.5, 0.5⟩]] = .ok [[⟨-0.5, -0.5, -0.5⟩]] := by
  refine ⟨?_, shift_centered.2⟩
  unfold shift
  rw [if_neg, if_pos]
  · intro p hp
    simp only [List.flatten_cons, List.flatten_nil, List.append_nil, List.mem_cons, List.not_mem_nil, or_false] at hp
    simp only [Sky.smul_x, Sky.smul_y, Sky.smul_z]
    rcases hp with rfl | rfl <;> norm_num
  · intro h
    have := (h ⟨-0.5, 0.5, 0.5⟩ (by simp)).1.1
    norm_num at this

/-- A case of `angular_counts`: two ranks, a second catalog which is moved as well. -/
theorem angular_case : ∃ out, angularPairs ⟨2, 2, 2⟩ [10, 90] (fun _ => 1) (fun i j k => (i + j + k) % 2) (fun _ _ => 1) (some 0)
    false (.node (.leaf 1) (.leaf 0)) [[⟨0.5, 0.5, 0.5⟩, ⟨-0.5, 0.5, 0.5⟩], []] [[1, 2], []] (some ([[⟨0.5, 0.5, 0.5⟩]], [[3]])) =
      .ok (.ok out) ∧ out.shape = [1] := by
  have h2 := observers_differ.2
  have h1 : shift ⟨2, 2, 2⟩ [[⟨0.5, 0.5, 0.5⟩, ⟨-0.5, 0.5, 0.5⟩], []] = .ok [[⟨0.5, 0.5, 0.5⟩, ⟨-0.5, 0.5, 0.5⟩], []] := by
    unfold shift
    rw [if_neg, if_pos]
    · intro p hp
      simp only [List.flatten_cons, List.flatten_nil, List.append_nil, List.mem_cons, List.not_mem_nil, or_false] at hp
      simp only [Sky.smul_x, Sky.smul_y, Sky.smul_z]
      rcases hp with rfl | rfl <;> norm_num
    · intro h
      have := (h ⟨-0.5, 0.5, 0.5⟩ (by simp)).1.1
      norm_num at this
  obtain ⟨out, h, hs, _⟩ := angular_counts ⟨2, 2, 2⟩ [10, 90] (fun _ => 1) (fun i j k => (i + j + k) % 2) (fun _ _ => 1) 0
    false (.node (.leaf 1) (.leaf 0)) [[⟨0.5, 0.5, 0.5⟩, ⟨-0.5, 0.5, 0.5⟩], []] [[1, 2], []] (some ([[⟨0.5, 0.5, 0.5⟩]], [[3]]))
    (some ([[⟨-0.5, -0.5, -0.5⟩]], [[3]])) rfl _ h1 rfl
    (by intro c hc c' hc'; cases hc; cases hc'; exact h2)
    (by
      intro p hp
      simp only [List.flatten_cons, List.flatten_nil, List.append_nil, List.mem_cons, List.not_mem_nil, or_false] at hp
      rcases hp with rfl | rfl <;> (intro e; injection e with e1; norm_num at e1))
    (by
      intro c hc p hp
      cases hc
      simp only [List.flatten_cons, List.flatten_nil, List.append_nil, List.mem_cons, List.not_mem_nil, or_false] at hp
      subst hp
      intro e; injection e with e1; norm_num at e1)
    (by simp [SurvPairs.maxEdge]; norm_num) (by decide) (by simp) (by intros; simp; omega)
  exact ⟨out, h, hs⟩

end NBK.BoxPairs
