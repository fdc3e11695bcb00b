import Verif.FiberObj.Model
import Verif.Fiber.Props
import Verif.Fof.LabelsProps
import Verif.Fof.MergeProps
import Verif.Sky.Props
import Mathlib.Analysis.SpecialFunctions.Trigonometric.Inverse
import Mathlib.Analysis.SpecialFunctions.Trigonometric.Bounds

/-!
# C111: the object `FiberCollisions`
-/
set_option linter.unusedSimpArgs false
namespace NBK.FiberObj
open NBK

/-! ## The statement -/

/-- The direction of an object. -/
noncomputable def dir (a : Args) (o : ℝ × ℝ) : Sky.Vec := Sky.skyToUnitSphere o.1 o.2 a.degrees

/-- The separation of two objects on the sky, in radians. -/
noncomputable def sep (a : Args) (x y : ℝ × ℝ) : ℝ := Real.arccos ((dir a x).dot (dir a y))

/-- The collision radius in radians. -/
noncomputable def radius (a : Args) : ℝ := a.radius * (Real.pi / 180)

/-- What links two objects: the distance of their directions, or of images of them in a periodic box of side 2.2, is at most the radius. -/
def Near (a : Args) (p q : Nat) : Prop :=
  ∃ x y, a.sky.flatten[p]? = some x ∧ a.sky.flatten[q]? = some y ∧ ∃ k l m : ℤ,
    ((dir a x).x - (dir a y).x + k * (22 / 10)) ^ 2 + ((dir a x).y - (dir a y).y + l * (22 / 10)) ^ 2 +
      ((dir a x).z - (dir a y).z + m * (22 / 10)) ^ 2 ≤ radius a ^ 2

/-- The routines that are not modelled do what they are for. -/
structure World (e : Env) (a : Args) : Prop where
  argsort : Fof.IsArgsort e.argsort
  sort : Fof.IsSort e.sort
  pick : ∀ s g, Fiber.IsPick (e.pick s g)
  ord : Fiber.IsOrd e.ord
  split : Fof.Decomposed (Near a) (e.held (22 / 10) (a.sky.map fun l => l.map (position a.degrees)) (radius a)) (a.sky.map List.length)
    (e.kd (22 / 10) (a.sky.map fun l => l.map (position a.degrees)) (radius a))

/-! ## Lengths and angles -/

theorem dir_sq (a : Args) (o : ℝ × ℝ) : (dir a o).x ^ 2 + (dir a o).y ^ 2 + (dir a o).z ^ 2 = 1 := by
  have h := Sky.unit_norm o.1 o.2 a.degrees
  unfold Sky.Vec.norm at h
  have h0 : 0 ≤ (Sky.skyToUnitSphere o.1 o.2 a.degrees).x ^ 2 + (Sky.skyToUnitSphere o.1 o.2 a.degrees).y ^ 2 + (Sky.skyToUnitSphere o.1 o.2 a.degrees).z ^ 2 := by positivity
  have := Real.sq_sqrt h0
  rw [h] at this
  unfold dir
  linarith

theorem dot_le (a : Args) (x y : ℝ × ℝ) : (dir a x).dot (dir a y) ≤ 1 ∧ -1 ≤ (dir a x).dot (dir a y) := by
  have h1 := dir_sq a x
  have h2 := dir_sq a y
  unfold Sky.Vec.dot
  constructor
  · nlinarith [sq_nonneg ((dir a x).x - (dir a y).x), sq_nonneg ((dir a x).y - (dir a y).y), sq_nonneg ((dir a x).z - (dir a y).z)]
  · nlinarith [sq_nonneg ((dir a x).x + (dir a y).x), sq_nonneg ((dir a x).y + (dir a y).y), sq_nonneg ((dir a x).z + (dir a y).z)]

theorem chord_position (a : Args) (x y : ℝ × ℝ) :
    chord (position a.degrees x) (position a.degrees y) = Real.sqrt (2 - 2 * (dir a x).dot (dir a y)) := by
  unfold chord position
  congr 1
  simp only [Sky.add_x, Sky.add_y, Sky.add_z]
  have h1 := dir_sq a x
  have h2 := dir_sq a y
  unfold Sky.Vec.dot
  unfold dir at *
  linarith

theorem chord_le_iff (a : Args) (x y : ℝ × ℝ) (r : ℝ) (hr : 0 ≤ r) :
    chord (position a.degrees x) (position a.degrees y) ≤ r ↔
      ((dir a x).x - (dir a y).x) ^ 2 + ((dir a x).y - (dir a y).y) ^ 2 + ((dir a x).z - (dir a y).z) ^ 2 ≤ r ^ 2 := by
  rw [chord_position, Real.sqrt_le_left hr]
  have h1 := dir_sq a x
  have h2 := dir_sq a y
  unfold Sky.Vec.dot
  constructor <;> intro h <;> linarith

theorem chord_le_of_sep (a : Args) (x y : ℝ × ℝ) (r : ℝ) (h : sep a x y ≤ r) : chord (position a.degrees x) (position a.degrees y) ≤ r := by
  have h0 : 0 ≤ sep a x y := Real.arccos_nonneg _
  rw [chord_position, Real.sqrt_le_left (by linarith)]
  have hc : Real.cos (sep a x y) = (dir a x).dot (dir a y) := Real.cos_arccos (dot_le a x y).2 (dot_le a x y).1
  have := Real.one_sub_sq_div_two_le_cos (x := sep a x y)
  rw [hc] at this
  nlinarith

theorem sep_le_of_chord (a : Args) (x y z : ℝ × ℝ)
    (h : chord (position a.degrees x) (position a.degrees y) ≤ chord (position a.degrees x) (position a.degrees z)) : sep a x y ≤ sep a x z := by
  rw [chord_position, chord_position, Real.sqrt_le_sqrt_iff (by linarith [(dot_le a x z).1])] at h
  exact Real.arccos_le_arccos (by linarith)

theorem near_of_chord (a : Args) (hR : 0 ≤ radius a) (p q : Nat) (x y : ℝ × ℝ) (hx : a.sky.flatten[p]? = some x) (hy : a.sky.flatten[q]? = some y)
    (h : chord (position a.degrees x) (position a.degrees y) ≤ radius a) : Near a p q := by
  rw [chord_le_iff a x y _ hR] at h
  exact ⟨x, y, hx, hy, 0, 0, 0, by simpa using h⟩

/-- C148: every object is inside the box of side 2.2 in which friends are looked for, a tenth away from its faces. -/
theorem inside (degrees : Bool) (o : ℝ × ℝ) : ∀ c ∈ [(position degrees o).x, (position degrees o).y, (position degrees o).z], 1 / 10 ≤ c ∧ c ≤ side - 1 / 10 := by
  have h := dir_sq ⟨[], 0, none, degrees⟩ o
  have key : ∀ u v w : ℝ, u ^ 2 + v ^ 2 + w ^ 2 = 1 → 1 / 10 ≤ u + 11 / 10 ∧ u + 11 / 10 ≤ side - 1 / 10 := by
    intro u v w h
    unfold side
    have := sq_nonneg v
    have := sq_nonneg w
    constructor <;> nlinarith
  intro c hc
  simp only [List.mem_cons, List.not_mem_nil, or_false] at hc
  rcases hc with rfl | rfl | rfl
  · exact key _ _ _ h
  · exact key (dir ⟨[], 0, none, degrees⟩ o).y (dir ⟨[], 0, none, degrees⟩ o).x (dir ⟨[], 0, none, degrees⟩ o).z (by linarith)
  · exact key (dir ⟨[], 0, none, degrees⟩ o).z (dir ⟨[], 0, none, degrees⟩ o).x (dir ⟨[], 0, none, degrees⟩ o).y (by linarith)

theorem axis_small (d R : ℝ) (k : ℤ) (h1 : |d| ≤ 2) (h : (d + k * (22 / 10)) ^ 2 ≤ R ^ 2) (h0 : 0 ≤ R) (hR : R < 2 / 10) : k = 0 := by
  have h2 := abs_le.mp (abs_le_of_sq_le_sq h h0)
  have h3 := abs_le.mp h1
  have k1 : ((-1 : ℤ) : ℝ) < k := by push_cast; linarith [h2.1, h3.2]
  have k2 : (k : ℝ) < ((1 : ℤ) : ℝ) := by push_cast; linarith [h2.2, h3.1]
  have k1' : (-1 : ℤ) < k := by exact_mod_cast k1
  have k2' : k < (1 : ℤ) := by exact_mod_cast k2
  omega

/-- C111: for radii below 0.2 radians (11.4 degrees) the periodic box plays no role: what links objects is the length of the chord between them. -/
theorem near_small (a : Args) (h0 : 0 ≤ radius a) (hR : radius a < 2 / 10) (p q : Nat) (x y : ℝ × ℝ) (hx : a.sky.flatten[p]? = some x)
    (hy : a.sky.flatten[q]? = some y) : Near a p q ↔ 2 * Real.sin (sep a x y / 2) ≤ radius a := by
  have hs : 2 * Real.sin (sep a x y / 2) = chord (position a.degrees x) (position a.degrees y) := by
    have hp : 0 ≤ Real.sin (sep a x y / 2) := by
      apply Real.sin_nonneg_of_nonneg_of_le_pi
      · have : 0 ≤ sep a x y := Real.arccos_nonneg _
        linarith
      · have : sep a x y ≤ Real.pi := Real.arccos_le_pi _
        linarith [Real.pi_pos]
    rw [chord_position]
    symm
    rw [Real.sqrt_eq_iff_mul_self_eq (by linarith [(dot_le a x y).1]) (by linarith)]
    have hc : Real.cos (sep a x y) = (dir a x).dot (dir a y) := Real.cos_arccos (dot_le a x y).2 (dot_le a x y).1
    rw [← hc, show Real.cos (sep a x y) = Real.cos (2 * (sep a x y / 2)) by ring_nf, Real.cos_two_mul]
    have := Real.sin_sq_add_cos_sq (sep a x y / 2)
    nlinarith
  rw [hs]
  constructor
  · rintro ⟨x', y', hx', hy', k, l, m, h⟩
    obtain rfl : x = x' := by rw [hx] at hx'; exact Option.some.inj hx'
    obtain rfl : y = y' := by rw [hy] at hy'; exact Option.some.inj hy'
    have h1 := dir_sq a x
    have h2 := dir_sq a y
    have bx : |(dir a x).x - (dir a y).x| ≤ 2 := by
      apply abs_le_of_sq_le_sq _ (by norm_num)
      nlinarith [sq_nonneg ((dir a x).x + (dir a y).x), sq_nonneg (dir a x).y, sq_nonneg (dir a x).z, sq_nonneg (dir a y).y, sq_nonneg (dir a y).z]
    have bY : |(dir a x).y - (dir a y).y| ≤ 2 := by
      apply abs_le_of_sq_le_sq _ (by norm_num)
      nlinarith [sq_nonneg ((dir a x).y + (dir a y).y), sq_nonneg (dir a x).x, sq_nonneg (dir a x).z, sq_nonneg (dir a y).x, sq_nonneg (dir a y).z]
    have bz : |(dir a x).z - (dir a y).z| ≤ 2 := by
      apply abs_le_of_sq_le_sq _ (by norm_num)
      nlinarith [sq_nonneg ((dir a x).z + (dir a y).z), sq_nonneg (dir a x).y, sq_nonneg (dir a x).x, sq_nonneg (dir a y).y, sq_nonneg (dir a y).x]
    have s1 := sq_nonneg ((dir a x).x - (dir a y).x + k * (22 / 10))
    have s2 := sq_nonneg ((dir a x).y - (dir a y).y + l * (22 / 10))
    have s3 := sq_nonneg ((dir a x).z - (dir a y).z + m * (22 / 10))
    have e1 := axis_small _ _ k bx (by linarith) h0 hR
    have e2 := axis_small _ _ l bY (by linarith) h0 hR
    have e3 := axis_small _ _ m bz (by linarith) h0 hR
    subst e1 e2 e3
    rw [chord_le_iff a x y _ h0]
    simpa using h
  · exact near_of_chord a h0 p q x y hx hy

/-! ## The object -/

theorem flat_map (a : Args) : (a.sky.map fun l => l.map (position a.degrees)).flatten = a.sky.flatten.map (position a.degrees) := by
  rw [List.map_flatten]

/-- The rows of all ranks. -/
theorem rowsOf_flatten (labels : List (List Nat)) (res : List (List Fiber.Res)) (h : res.map List.length = labels.map List.length) :
    (rowsOf labels res).flatten = (labels.flatten.zip res.flatten).map (fun x => ⟨x.1, x.2.1, x.2.2⟩) ∧
      (rowsOf labels res).map List.length = labels.map List.length := by
  induction labels generalizing res with
  | nil => cases res <;> simp [rowsOf] at h ⊢
  | cons l labels ih =>
    cases res with
    | nil => simp at h
    | cons r res =>
      simp only [List.map_cons, List.cons.injEq] at h
      obtain ⟨h1, h2⟩ := ih res h.2
      unfold rowsOf at *
      constructor
      · simp only [List.zip_cons_cons, List.map_cons, List.flatten_cons, h1]
        rw [List.zip_append (by rw [h.1]), List.map_append]
      · simp [h2, h.1]

/-- C111: what `FiberCollisions` finds. The labels are those of the groups of linked objects, 0 for an object that is alone. Two objects that both get fibers are
further apart on the sky than the collision radius. A collided object has as its neighbor an object of its group with a fiber, the nearest on the sky of those; it is
the nearest of all objects with fibers if any of them is within the radius. The other objects have neighbor -1; objects alone get fibers, and of two objects in a
group exactly one does. -/
theorem fibers_partial (e : Env) (a : Args) (W : World e a) (hne : a.sky ≠ []) (hr : ∀ l ∈ a.sky, 2 ≤ l.length) (hR : 0 ≤ a.radius) :
    ∃ (fuel₀ : Nat) (o : Obj) (lab : Nat → Nat) (col : Nat → Bool) (nb : Nat → Int), (∀ fuel ≥ fuel₀, new e fuel a = some (.ok o)) ∧
      o.radius = a.radius ∧ o.degrees = a.degrees ∧ (∀ s, a.seed = some s → o.seed = s) ∧ o.rows.map List.length = a.sky.map List.length ∧
      o.rows.flatten = (List.range a.sky.flatten.length).map (fun i => ⟨lab i, some (col i), some (nb i)⟩) ∧
      (∀ i < a.sky.flatten.length, lab i = 0 ↔ ∀ j < a.sky.flatten.length, Fof.Conn (Near a) i j → j = i) ∧
      (∀ i < a.sky.flatten.length, ∀ j < a.sky.flatten.length, lab i ≠ 0 → (lab j = lab i ↔ Fof.Conn (Near a) i j)) ∧
      (∀ (i j : Nat) (x y : ℝ × ℝ), a.sky.flatten[i]? = some x → a.sky.flatten[j]? = some y → i ≠ j → col i = false → col j = false → radius a < sep a x y) ∧
      (∀ (i : Nat) (x : ℝ × ℝ), a.sky.flatten[i]? = some x → col i = true → ∃ (j : Nat) (y : ℝ × ℝ), a.sky.flatten[j]? = some y ∧ nb i = (j : Int) ∧ col j = false ∧
        Fof.Conn (Near a) i j ∧ (∀ (k : Nat) (z : ℝ × ℝ), a.sky.flatten[k]? = some z → col k = false → Fof.Conn (Near a) i k → sep a x y ≤ sep a x z) ∧
        ((∃ (m : Nat) (w : ℝ × ℝ), a.sky.flatten[m]? = some w ∧ col m = false ∧ sep a x w ≤ radius a) →
          ∀ (k : Nat) (z : ℝ × ℝ), a.sky.flatten[k]? = some z → col k = false → sep a x y ≤ sep a x z)) ∧
      (∀ i < a.sky.flatten.length, col i = false → nb i = -1) ∧
      (∀ i < a.sky.flatten.length, lab i = 0 → col i = false) ∧
      (∀ i < a.sky.flatten.length, ∀ j < a.sky.flatten.length, i ≠ j → (∀ k < a.sky.flatten.length, Fof.Conn (Near a) i k ↔ k = i ∨ k = j) → col i = !col j) := by
  have hR' : 0 ≤ radius a := by unfold radius; have := Real.pi_pos; positivity
  obtain ⟨f₀, res, h1, h2, h3⟩ := Fof.fof_components _ e.argsort W.argsort _ _ _ W.split
  have hsum : (a.sky.map List.length).sum = a.sky.flatten.length := by simp
  rw [hsum] at h3
  have hlen : res.flatten.length = a.sky.flatten.length := by rw [List.length_flatten, h2, hsum]
  have hres : res ≠ [] := by
    intro h; rw [h] at h2; exact hne (List.map_eq_nil_iff.mp h2.symm)
  have hresr : ∀ l ∈ res, l ≠ [] := by
    intro l hl h0
    obtain ⟨i, hi⟩ := List.mem_iff_getElem?.mp hl
    have : (res.map List.length)[i]? = some 0 := by rw [List.getElem?_map, hi, h0]; rfl
    rw [h2, List.getElem?_map, Option.map_eq_some_iff] at this
    obtain ⟨r, hr1, hr2⟩ := this
    have := hr r (List.mem_of_getElem? hr1)
    omega
  obtain ⟨lab, K, a1, a2, a3, -, -⟩ := Fof.assignLabels_partial e.sort W.sort e.argsort W.argsort 1 res hres hresr
  obtain ⟨n, hn⟩ : ∃ n, n = a.sky.flatten.length := ⟨_, rfl⟩
  obtain ⟨labels, hlab⟩ : ∃ labels, labels = res.map fun l => l.map lab := ⟨_, rfl⟩
  have hlf : labels.flatten = res.flatten.map lab := by rw [hlab, List.map_flatten]
  have hlsz : labels.map List.length = a.sky.map List.length := by
    rw [← h2, hlab, List.map_map]; apply List.map_congr_left; intro l _; simp
  have hll : labels.flatten.length = n := by rw [hlf, List.length_map, hlen, hn]
  have hget : ∀ q < n, ∃ x, res.flatten[q]? = some x ∧ x ∈ res.flatten ∧ labels.flatten[q]? = some (lab x) := by
    intro q hq
    obtain ⟨x, hx, _⟩ := h3 q (by omega)
    exact ⟨x, hx, List.mem_of_getElem? hx, by rw [hlf, List.getElem?_map, hx]; rfl⟩
  have hsame : ∀ p q x y, p < n → q < n → res.flatten[p]? = some x → res.flatten[q]? = some y → (x = y ↔ Fof.Conn (Near a) p q) := by
    intro p q x y hp hq hx hy
    have := Fof.fof_same_iff _ e.argsort W.argsort _ _ _ W.split f₀ res (h1 f₀ (le_refl _)) p q (by rw [hsum]; omega) (by rw [hsum]; omega)
    rw [hx, hy, Option.some.injEq] at this
    exact this
  obtain ⟨lb, hlb⟩ : ∃ lb : Nat → Nat, lb = fun i => labels.flatten.getD i 0 := ⟨_, rfl⟩
  have hlbe : ∀ q < n, labels.flatten[q]? = some (lb q) := by
    intro q hq
    obtain ⟨x, -, -, hx⟩ := hget q hq
    have : lb q = lab x := by rw [hlb]; simp only [List.getD_eq_getElem?_getD, hx, Option.getD_some]
    rw [hx, this]
  -- two objects have the same nonzero label iff they are connected
  have hiff : ∀ i < n, ∀ j < n, lb i ≠ 0 → (lb j = lb i ↔ Fof.Conn (Near a) i j) := by
    intro i hi j hj h0
    obtain ⟨x, hx, hxm, hxl⟩ := hget i hi
    obtain ⟨y, hy, hym, hyl⟩ := hget j hj
    have ex : lb i = lab x := by have := hlbe i hi; rw [hxl] at this; exact (Option.some.inj this).symm
    have ey : lb j = lab y := by have := hlbe j hj; rw [hyl] at this; exact (Option.some.inj this).symm
    rw [← hsame i j x y hi hj hx hy, ex, ey]
    constructor
    · intro h; exact a3 x hxm y hym (by rw [← ex]; exact h0) h.symm
    · rintro rfl; rfl
  have hcount : ∀ (i x : Nat), i < n → res.flatten[i]? = some x → (1 < res.flatten.count x ↔ ∃ j < n, j ≠ i ∧ res.flatten[j]? = some x) := by
    intro i x hi hx
    constructor
    · intro hc
      by_contra hno
      push Not at hno
      have hone : res.flatten.count x ≤ 1 := by
        have hspl : res.flatten = res.flatten.take i ++ x :: res.flatten.drop (i + 1) := by
          obtain ⟨h', rfl⟩ := List.getElem?_eq_some_iff.mp hx
          rw [List.getElem_cons_drop, List.take_append_drop]
        rw [hspl, List.count_append, List.count_cons_self]
        have t1 : (res.flatten.take i).count x = 0 := by
          rw [List.count_eq_zero]
          intro hm
          obtain ⟨j, hj⟩ := List.mem_iff_getElem?.mp hm
          rw [List.getElem?_take] at hj
          split at hj
          · rename_i hji
            exact hno j (by omega) (by omega) hj
          · simp at hj
        have t2 : (res.flatten.drop (i + 1)).count x = 0 := by
          rw [List.count_eq_zero]
          intro hm
          obtain ⟨j, hj⟩ := List.mem_iff_getElem?.mp hm
          rw [List.getElem?_drop] at hj
          have := (List.getElem?_eq_some_iff.mp hj).1
          exact hno (i + 1 + j) (by omega) (by omega) hj
        omega
      omega
    · rintro ⟨j, hj, hji, hjx⟩
      by_contra hc
      have hle : res.flatten.count x ≤ 1 := by omega
      have : ∀ (u v : Nat), u < v → res.flatten[u]? = some x → res.flatten[v]? = some x → False := by
        intro u v huv hu hv
        have hspl : res.flatten = res.flatten.take (u + 1) ++ res.flatten.drop (u + 1) := (List.take_append_drop _ _).symm
        rw [hspl, List.count_append] at hle
        have m1 : x ∈ res.flatten.take (u + 1) := List.mem_iff_getElem?.mpr ⟨u, by rw [List.getElem?_take, if_pos (by omega)]; exact hu⟩
        have m2 : x ∈ res.flatten.drop (u + 1) := List.mem_iff_getElem?.mpr ⟨v - (u + 1), by
          rw [List.getElem?_drop, show u + 1 + (v - (u + 1)) = v by omega]; exact hv⟩
        have c1 := List.count_pos_iff.mpr m1
        have c2 := List.count_pos_iff.mpr m2
        omega
      rcases Nat.lt_or_gt_of_ne hji with h | h
      · exact this j i h hjx hx
      · exact this i j h hx hjx
  have hzero : ∀ i < n, (lb i = 0 ↔ ∀ j < n, Fof.Conn (Near a) i j → j = i) := by
    intro i hi
    obtain ⟨x, hx, hxm, hxl⟩ := hget i hi
    have ex : lb i = lab x := by have := hlbe i hi; rw [hxl] at this; exact (Option.some.inj this).symm
    rw [ex, a2 x hxm]
    constructor
    · intro hc j hj hcon
      by_contra hji
      obtain ⟨y, hy, -, -⟩ := hget j hj
      have := (hsame i j x y hi hj hx hy).mpr hcon
      subst this
      have := (hcount i x hi hx).mpr ⟨j, hj, hji, hy⟩
      omega
    · intro h
      by_contra hc
      obtain ⟨j, hj, hji, hjx⟩ := (hcount i x hi hx).mp (by omega)
      exact hji (h j hj ((hsame i j x x hi hj hx hjx).mp rfl))
  have hpos : ∀ (i : Nat) (x : ℝ × ℝ), a.sky.flatten[i]? = some x → (a.sky.map fun l => l.map (position a.degrees)).flatten.getD i ⟨0, 0, 0⟩ = position a.degrees x := by
    intro i x hx
    rw [flat_map, List.getD_eq_getElem?_getD, List.getElem?_map, hx]; rfl
  have hsk : ∀ i < n, ∃ x, a.sky.flatten[i]? = some x := fun i hi => ⟨_, List.getElem?_eq_getElem (by omega)⟩
  obtain ⟨seed, hseed⟩ : ∃ s, s = a.seed.getD e.randint := ⟨_, rfl⟩
  obtain ⟨dist, hdist⟩ : ∃ d : Nat → Nat → ℝ, d = fun i j => chord ((a.sky.map fun l => l.map (position a.degrees)).flatten.getD i ⟨0, 0, 0⟩)
    ((a.sky.map fun l => l.map (position a.degrees)).flatten.getD j ⟨0, 0, 0⟩) := ⟨_, rfl⟩
  have hde : ∀ (i j : Nat) (x y : ℝ × ℝ), a.sky.flatten[i]? = some x → a.sky.flatten[j]? = some y →
      dist i j = chord (position a.degrees x) (position a.degrees y) := by
    intro i j x y hx hy
    rw [hdist]; simp only [hpos i x hx, hpos j y hy]
  obtain ⟨col, nb, out, b1, b2, b3, b4, b5, b6, b7, b8⟩ := Fiber.fibers_spec dist (radius a) (e.which seed) (e.pick seed) (W.pick seed) e.ord W.ord labels (by
      intro i g hig h0
      have hi : i < n := by rw [← hll]; exact (List.getElem?_eq_some_iff.mp hig).1
      have hg : lb i = g := by have := hlbe i hi; rw [hig] at this; exact (Option.some.inj this).symm
      by_contra hno
      push Not at hno
      apply h0
      rw [← hg, hzero i hi]
      intro j hj hcon
      by_contra hji
      apply hno j hji
      rw [hlbe j hj, (hiff i hi j hj (by rw [hg]; exact h0)).mpr hcon, hg])
    (by
      intro i j hi hj hij hd
      rw [hll] at hi hj
      obtain ⟨x, hx⟩ := hsk i hi
      obtain ⟨y, hy⟩ := hsk j hj
      rw [hde i j x y hx hy] at hd
      have hcon : Fof.Conn (Near a) i j := .rel _ _ (near_of_chord a hR' i j x y hx hy hd)
      have h0 : lb i ≠ 0 := by
        intro h
        exact hij ((hzero i hi).mp h j hj hcon).symm
      exact ⟨lb i, h0, hlbe i hi, by rw [hlbe j hj, (hiff i hi j hj h0).mpr hcon]⟩)
  rw [hll] at b3 b4 b5 b6 b7 b8
  obtain ⟨q1, q2⟩ := rowsOf_flatten labels out b2
  have hcol0 : ∀ i < n, lb i = 0 → col i = false := by
    intro i hi h0
    exact b7 i hi (by rw [hlbe i hi, h0])
  refine ⟨f₀, ⟨a.radius, seed, a.degrees, rowsOf labels out⟩, lb, col, nb, ?_, rfl, rfl, ?_, ?_, ?_, ?_, ?_, ?_, ?_, ?_, ?_, ?_⟩
  · intro fuel hf
    unfold new
    rw [if_neg]
    · have hRd : Sky.deg2rad a.radius = radius a := rfl
      have hlm : (a.sky.map fun l => l.map (position a.degrees)).map List.length = a.sky.map List.length := by
        rw [List.map_map]; apply List.map_congr_left; intro l _; simp
      have hside : side = 22 / 10 := rfl
      simp only [hRd, hlm, hside, h1 fuel hf, Option.map_some, ofFof, Except.bind, a1, ← hlab]
      rw [← hseed, ← hdist, b1]
      rfl
    · simp only [List.any_eq_true, decide_eq_true_eq, not_exists, not_and]
      intro l hl h
      have := hr l hl
      omega
  · intro s hs; rw [hseed, hs]; rfl
  · exact q2.trans hlsz
  · show (rowsOf labels out).flatten = _
    rw [q1, b3, ← hn]
    apply List.ext_getElem?
    intro i
    by_cases hi : i < n
    · rw [List.getElem?_map, List.getElem?_map, List.getElem?_range hi, List.getElem?_zip_eq_some (z := (lb i, some (col i), some (nb i))) |>.mpr ⟨hlbe i hi, by
        rw [List.getElem?_map, List.getElem?_range hi]; rfl⟩]
      rfl
    · rw [List.getElem?_eq_none (by simp [hll]; omega), List.getElem?_eq_none (by simp; omega)]
  · rw [← hn]; exact hzero
  · rw [← hn]; exact hiff
  · intro i j x y hx hy hij hi hj
    have hi' : i < n := by rw [hn]; exact (List.getElem?_eq_some_iff.mp hx).1
    have hj' : j < n := by rw [hn]; exact (List.getElem?_eq_some_iff.mp hy).1
    by_contra hle
    have := chord_le_of_sep a x y (radius a) (not_lt.mp hle)
    rw [← hde i j x y hx hy] at this
    exact b4 i hi' j hj' hij hi hj this
  · intro i x hx hci
    have hi' : i < n := by rw [hn]; exact (List.getElem?_eq_some_iff.mp hx).1
    have h0 : lb i ≠ 0 := by
      intro h; rw [hcol0 i hi' h] at hci; exact absurd hci (by decide)
    obtain ⟨j, hj, hnb, hcj, hlj, hmin⟩ := b5 i hi' hci
    obtain ⟨y, hy⟩ := hsk j hj
    rw [hlbe j hj, hlbe i hi', Option.some.injEq] at hlj
    have near : ∀ (k : Nat) (z : ℝ × ℝ), a.sky.flatten[k]? = some z → col k = false → Fof.Conn (Near a) i k → sep a x y ≤ sep a x z := by
      intro k z hz hck hcon
      have hk' : k < n := by rw [hn]; exact (List.getElem?_eq_some_iff.mp hz).1
      have := hmin k hk' hck (by rw [hlbe k hk', hlbe i hi', (hiff i hi' k hk' h0).mpr hcon])
      rw [hde i j x y hx hy, hde i k x z hx hz] at this
      exact sep_le_of_chord a x y z this
    refine ⟨j, y, hy, hnb, hcj, (hiff i hi' j hj h0).mp hlj, near, ?_⟩
    rintro ⟨m, w, hw, hcm, hm⟩ k z hz hck
    have lk : ∀ (q : Nat) (v : ℝ × ℝ), a.sky.flatten[q]? = some v → sep a x v ≤ radius a → Fof.Conn (Near a) i q := fun q v hv hs =>
      .rel _ _ (near_of_chord a hR' i q x v hx hv (chord_le_of_sep a x v _ hs))
    by_cases hz' : sep a x z ≤ radius a
    · exact near k z hz hck (lk k z hz hz')
    · have := near m w hw hcm (lk m w hw hm)
      linarith
  · rw [← hn]; exact b6
  · rw [← hn]; exact hcol0
  · rw [← hn]
    intro i hi j hj hij hk
    apply b8 i hi j hj hij
    intro g hg
    have hgl : lb i = g := by have := hlbe i hi; rw [hg] at this; exact (Option.some.inj this).symm
    have hcj := (hk j hj).mpr (Or.inr rfl)
    have h0 : lb i ≠ 0 := by
      intro h; exact hij ((hzero i hi).mp h j hj hcj).symm
    refine ⟨by rw [← hgl]; exact h0, fun k => ?_⟩
    by_cases hkn : k < n
    · rw [hlbe k hkn, Option.some.injEq, ← hgl, hiff i hi k hkn h0]
      exact hk k hkn
    · rw [List.getElem?_eq_none (by omega)]
      simp only [reduceCtorEq, false_iff]
      omega

end NBK.FiberObj
