import Verif.Sky.Model
import Mathlib.Tactic.Linarith
import Mathlib.Tactic.Ring
import Mathlib.Tactic.FieldSimp
import Mathlib.Tactic.Positivity
import Mathlib.Tactic.LinearCombination

set_option linter.unusedSimpArgs false

/-! C93: sky coordinates and Cartesian positions are inverse to each other, and redshifts contain the velocities. -/
noncomputable section
namespace NBK.Sky
open Real

theorem mod_period (a : ℝ) (k : ℤ) : mod (a + 360 * k) 360 = mod a 360 := by
  unfold mod
  have : (a + 360 * (k : ℝ)) / 360 = a / 360 + k := by field_simp
  rw [this, Int.floor_add_intCast]
  push_cast; ring

theorem mod_range (a : ℝ) : 0 ≤ mod a 360 ∧ mod a 360 < 360 := by
  unfold mod
  have h1 := Int.floor_le (a / 360)
  have h2 := Int.lt_floor_add_one (a / 360)
  constructor <;> linarith

theorem mod_shift (a : ℝ) : ∃ k : ℤ, mod (a - 360) 360 = a + 360 * k := by
  refine ⟨-1 - ⌊(a - 360) / 360⌋, ?_⟩
  unfold mod
  push_cast; ring

theorem deg_rad (a : ℝ) : deg2rad (rad2deg a) = a := by
  have := pi_ne_zero
  unfold deg2rad rad2deg; field_simp

theorem rad_deg (a : ℝ) : rad2deg (deg2rad a) = a := by
  have := pi_ne_zero
  unfold deg2rad rad2deg; field_simp

/-- C93: right ascensions lie in [0, 360) and declinations in [-90, 90], for every position and observer. -/
theorem ranges (pos observer : Vec) :
    0 ≤ (cartesianToEquatorial pos observer).ra ∧ (cartesianToEquatorial pos observer).ra < 360 ∧
    -90 ≤ (cartesianToEquatorial pos observer).dec ∧ (cartesianToEquatorial pos observer).dec ≤ 90 := by
  refine ⟨(mod_range _).1, (mod_range _).2, ?_⟩
  have key : ∀ z s : ℝ, 0 ≤ s → -90 ≤ rad2deg (arctan2 z s) ∧ rad2deg (arctan2 z s) ≤ 90 := by
    intro z s hs
    have h : |Complex.arg ⟨s, z⟩| ≤ π / 2 := Complex.abs_arg_le_pi_div_two_iff.mpr hs
    have hp := pi_pos
    obtain ⟨h1, h2⟩ := abs_le.mp h
    unfold rad2deg arctan2
    have e : (180 : ℝ) / π > 0 := by positivity
    have e2 : π / 2 * (180 / π) = 90 := by field_simp; norm_num
    constructor
    · have := mul_le_mul_of_nonneg_right h1 e.le
      linarith
    · have := mul_le_mul_of_nonneg_right h2 e.le
      linarith
  exact key _ _ (sqrt_nonneg _)

/-- C93: sky coordinates are mapped to the unit sphere. -/
theorem unit_norm (ra dec : ℝ) (degrees : Bool) : (skyToUnitSphere ra dec degrees).norm = 1 := by
  unfold skyToUnitSphere Vec.norm
  simp only []
  generalize (if degrees then deg2rad ra else ra) = a
  generalize (if degrees then deg2rad dec else dec) = d
  have h1 := sin_sq_add_cos_sq a
  have h2 := sin_sq_add_cos_sq d
  rw [show (cos d * cos a) ^ 2 + (cos d * sin a) ^ 2 + sin d ^ 2 = 1 by linear_combination h2 + cos d ^ 2 * h1]
  simp

/-- C93: coordinates in radians are those in degrees after conversion. -/
theorem radians (ra dec : ℝ) : skyToUnitSphere ra dec false = skyToUnitSphere (rad2deg ra) (rad2deg dec) true := by
  simp [skyToUnitSphere, deg_rad]

theorem arctan2_polar (r θ : ℝ) (hr : 0 < r) :
    ∃ k : ℤ, arctan2 (r * sin θ) (r * cos θ) = θ + 2 * π * k := by
  have h := Complex.arg_mul_cos_add_sin_mul_I_eq_toIocMod hr θ
  refine ⟨-toIocDiv two_pi_pos (-π) θ, ?_⟩
  have e : ((r : ℂ) * (Complex.cos θ + Complex.sin θ * Complex.I)) = ⟨r * cos θ, r * sin θ⟩ := by
    apply Complex.ext
    · simp [← Complex.ofReal_cos, ← Complex.ofReal_sin]
    · simp [← Complex.ofReal_cos, ← Complex.ofReal_sin]
  rw [e] at h
  unfold arctan2
  rw [h, toIocMod]
  simp only [zsmul_eq_mul]
  push_cast; ring

theorem arctan2_half (r θ : ℝ) (hr : 0 < r) (h1 : -(π / 2) ≤ θ) (h2 : θ ≤ π / 2) :
    arctan2 (r * sin θ) (r * cos θ) = θ := by
  have hp := pi_pos
  have h := Complex.arg_mul_cos_add_sin_mul_I hr (θ := θ) ⟨by linarith, by linarith⟩
  have e : ((r : ℂ) * (Complex.cos θ + Complex.sin θ * Complex.I)) = ⟨r * cos θ, r * sin θ⟩ := by
    apply Complex.ext
    · simp [← Complex.ofReal_cos, ← Complex.ofReal_sin]
    · simp [← Complex.ofReal_cos, ← Complex.ofReal_sin]
  rw [e] at h
  exact h

theorem hypot_polar (c θ : ℝ) (hc : 0 ≤ c) : hypot (c * cos θ) (c * sin θ) = c := by
  unfold hypot
  have := sin_sq_add_cos_sq θ
  rw [show (c * cos θ) ^ 2 + (c * sin θ) ^ 2 = c ^ 2 by linear_combination c ^ 2 * this]
  exact sqrt_sq hc

theorem add_x (a b : Vec) : (a + b).x = a.x + b.x := rfl
theorem add_y (a b : Vec) : (a + b).y = a.y + b.y := rfl
theorem add_z (a b : Vec) : (a + b).z = a.z + b.z := rfl
theorem sub_x (a b : Vec) : (a - b).x = a.x - b.x := rfl
theorem sub_y (a b : Vec) : (a - b).y = a.y - b.y := rfl
theorem sub_z (a b : Vec) : (a - b).z = a.z - b.z := rfl
theorem smul_x (c : ℝ) (a : Vec) : (c • a).x = c * a.x := rfl
theorem smul_y (c : ℝ) (a : Vec) : (c • a).y = c * a.y := rfl
theorem smul_z (c : ℝ) (a : Vec) : (c • a).z = c * a.z := rfl

/-- C93: the direction of an object at a positive distance from the observer is found again: the declination exactly, poles
included, and the right ascension up to full turns, except at the poles. -/
theorem sky_inverse (r ra dec : ℝ) (observer : Vec) (hr : 0 < r) (h1 : -90 ≤ dec) (h2 : dec ≤ 90) :
    (cartesianToEquatorial (r • skyToUnitSphere ra dec true + observer) observer).dec = dec ∧
    (-90 < dec → dec < 90 →
      (cartesianToEquatorial (r • skyToUnitSphere ra dec true + observer) observer).ra = mod ra 360) := by
  have hp := pi_pos
  have hd1 : -(π / 2) ≤ deg2rad dec := by unfold deg2rad; nlinarith
  have hd2 : deg2rad dec ≤ π / 2 := by unfold deg2rad; nlinarith
  have hc : 0 ≤ cos (deg2rad dec) := cos_nonneg_of_mem_Icc ⟨hd1, hd2⟩
  have ex : (r • skyToUnitSphere ra dec true + observer).x - observer.x =
      (r * cos (deg2rad dec)) * cos (deg2rad ra) := by
    rw [add_x, smul_x]; simp only [skyToUnitSphere, if_true]; ring
  have ey : (r • skyToUnitSphere ra dec true + observer).y - observer.y =
      (r * cos (deg2rad dec)) * sin (deg2rad ra) := by
    rw [add_y, smul_y]; simp only [skyToUnitSphere, if_true]; ring
  have ez : (r • skyToUnitSphere ra dec true + observer).z - observer.z = r * sin (deg2rad dec) := by
    rw [add_z, smul_z]; simp only [skyToUnitSphere, if_true]; ring
  unfold cartesianToEquatorial
  simp only []
  rw [ex, ey, ez, hypot_polar _ _ (mul_nonneg hr.le hc), arctan2_half r _ hr hd1 hd2]
  refine ⟨rad_deg dec, ?_⟩
  intro h3 h4
  have hc' : 0 < cos (deg2rad dec) := by
    apply cos_pos_of_mem_Ioo
    constructor <;> (unfold deg2rad; nlinarith)
  obtain ⟨k, hk⟩ := arctan2_polar (r * cos (deg2rad dec)) (deg2rad ra) (mul_pos hr hc')
  rw [hk]
  have e : rad2deg (deg2rad ra + 2 * π * k) = ra + 360 * (k : ℝ) := by
    have := pi_ne_zero
    unfold rad2deg deg2rad; field_simp; ring
  rw [e, show ra + 360 * (k : ℝ) - 360 = ra + 360 * ((k - 1 : ℤ) : ℝ) by push_cast; ring, mod_period]

theorem norm_mk (x y : ℝ) : ‖(⟨x, y⟩ : ℂ)‖ = hypot x y := by
  rw [Complex.norm_def, Complex.normSq_mk, hypot]
  congr 1; ring

/-- C93: every position is that of its sky coordinates and its distance from the observer. -/
theorem position_inverse (pos observer : Vec) :
    (pos - observer).norm • skyToUnitSphere (cartesianToEquatorial pos observer).ra
      (cartesianToEquatorial pos observer).dec true + observer = pos := by
  unfold cartesianToEquatorial
  simp only []
  obtain ⟨k, hk⟩ := mod_shift (rad2deg (arctan2 (pos.y - observer.y) (pos.x - observer.x)))
  rw [hk]
  have e : deg2rad (rad2deg (arctan2 (pos.y - observer.y) (pos.x - observer.x)) + 360 * (k : ℝ)) =
      arctan2 (pos.y - observer.y) (pos.x - observer.x) + k * (2 * π) := by
    have := pi_ne_zero
    unfold rad2deg deg2rad; field_simp; ring
  have a1 := Complex.norm_mul_cos_arg ⟨pos.x - observer.x, pos.y - observer.y⟩
  have a2 := Complex.norm_mul_sin_arg ⟨pos.x - observer.x, pos.y - observer.y⟩
  have b1 := Complex.norm_mul_cos_arg ⟨hypot (pos.x - observer.x) (pos.y - observer.y), pos.z - observer.z⟩
  have b2 := Complex.norm_mul_sin_arg ⟨hypot (pos.x - observer.x) (pos.y - observer.y), pos.z - observer.z⟩
  have en : (pos - observer).norm = hypot (hypot (pos.x - observer.x) (pos.y - observer.y)) (pos.z - observer.z) := by
    unfold Vec.norm hypot
    rw [sub_x, sub_y, sub_z, sq_sqrt (by positivity)]
  rw [norm_mk] at a1 a2 b1 b2
  simp only [] at a1 a2 b1 b2
  ext
  · rw [add_x, smul_x]
    simp only [skyToUnitSphere, if_true]
    rw [e, deg_rad, cos_add_int_mul_two_pi, en]
    unfold arctan2
    rw [← mul_assoc, b1, a1]; ring
  · rw [add_y, smul_y]
    simp only [skyToUnitSphere, if_true]
    rw [e, deg_rad, sin_add_int_mul_two_pi, en]
    unfold arctan2
    rw [← mul_assoc, b1, a2]; ring
  · rw [add_z, smul_z]
    simp only [skyToUnitSphere, if_true]
    rw [deg_rad, en]
    unfold arctan2
    rw [b2]; ring

/-! ### Redshifts -/

/-- `a` and `b` are neighbours on the grid. -/
def Adjacent (zs : List ℝ) (a b : ℝ) : Prop := ∃ p s, zs = p ++ a :: b :: s

/-- C93: a redshift that is found lies between two neighbours on the grid whose distances enclose the distance, and divides
the interval as the distance does. -/
theorem redshift_between (dist : ℝ → ℝ) (zs : List ℝ) (hs : zs.Pairwise (· < ·))
    (hd : ∀ a ∈ zs, ∀ b ∈ zs, a < b → dist a < dist b) (r z : ℝ) (h : redshiftOf dist zs r = .ok z) :
    ∃ a b, Adjacent zs a b ∧ dist a ≤ r ∧ r ≤ dist b ∧ a ≤ z ∧ z ≤ b ∧ (z - a) * (dist b - dist a) = (b - a) * (r - dist a) := by
  induction zs with
  | nil => simp [redshiftOf, interp1d] at h
  | cons a l ih =>
    cases l with
    | nil => simp [redshiftOf, interp1d] at h
    | cons b l =>
      have hab : a < b := (List.pairwise_cons.mp hs).1 b (by simp)
      have hdd := hd a (by simp) b (by simp) hab
      unfold redshiftOf at h
      simp only [List.map_cons, interp1d] at h
      by_cases h1 : r < dist a
      · rw [if_pos h1] at h; cases h
      · rw [if_neg h1] at h
        push Not at h1
        by_cases h2 : r ≤ dist b
        · rw [if_pos h2] at h
          have hz : a + (b - a) / (dist b - dist a) * (r - dist a) = z := Except.ok.inj h
          have hne : dist b - dist a ≠ 0 := by linarith
          have hrel : (z - a) * (dist b - dist a) = (b - a) * (r - dist a) := by
            rw [← hz]; field_simp; ring
          refine ⟨a, b, ⟨[], l, rfl⟩, h1, h2, ?_, ?_, hrel⟩
          · have : 0 ≤ (b - a) / (dist b - dist a) * (r - dist a) := by
              apply mul_nonneg (div_nonneg (by linarith) (by linarith)) (by linarith)
            linarith
          · by_contra hc
            push Not at hc
            have h3 : (z - a) * (dist b - dist a) > (b - a) * (dist b - dist a) :=
              mul_lt_mul_of_pos_right (by linarith) (by linarith)
            have h4 : (b - a) * (r - dist a) ≤ (b - a) * (dist b - dist a) :=
              mul_le_mul_of_nonneg_left (by linarith) (by linarith)
            linarith
        · rw [if_neg h2] at h
          obtain ⟨a', b', ⟨p, s, hps⟩, rest⟩ := ih (List.pairwise_cons.mp hs).2
            (fun x hx y hy => hd x (by simp [hx]) y (by simp [hy])) h
          exact ⟨a', b', ⟨a :: p, s, by rw [hps]; rfl⟩, rest⟩

/-- C93: a redshift is found for every distance between those of the first and of the last redshift of the grid. -/
theorem redshift_found (dist : ℝ → ℝ) (zs : List ℝ) : ∀ (z0 z1 : ℝ) (r : ℝ), dist z0 ≤ r →
    (∃ b ∈ z1 :: zs, r ≤ dist b) → ∃ z, redshiftOf dist (z0 :: z1 :: zs) r = .ok z := by
  induction zs with
  | nil =>
    intro z0 z1 r h0 ⟨b, hb, hr⟩
    have : b = z1 := by simpa using hb
    subst this
    refine ⟨z0 + (b - z0) / (dist b - dist z0) * (r - dist z0), ?_⟩
    simp only [redshiftOf, List.map_cons, List.map_nil, interp1d, if_neg (not_lt.mpr h0), if_pos hr]
  | cons z2 zs ih =>
    intro z0 z1 r h0 ⟨b, hb, hr⟩
    by_cases h1 : r ≤ dist z1
    · refine ⟨z0 + (z1 - z0) / (dist z1 - dist z0) * (r - dist z0), ?_⟩
      simp only [redshiftOf, List.map_cons, interp1d, if_neg (not_lt.mpr h0), if_pos h1]
    · have hb' : b ∈ z2 :: zs := by
        rcases List.mem_cons.mp hb with rfl | hb
        · exact absurd hr h1
        · exact hb
      obtain ⟨z, hz⟩ := ih z1 z2 r (by linarith [not_le.mp h1]) ⟨b, hb', hr⟩
      refine ⟨z, ?_⟩
      unfold redshiftOf at hz ⊢
      simp only [List.map_cons] at hz ⊢
      rw [interp1d, if_neg (not_lt.mpr h0), if_neg h1]
      exact hz

/-- C93: a distance beyond the grid is a ValueError. -/
theorem redshift_beyond (dist : ℝ → ℝ) (zs : List ℝ) (r : ℝ) (h : ∀ z ∈ zs, dist z < r) :
    redshiftOf dist zs r = .error .valueError := by
  induction zs with
  | nil => rfl
  | cons a l ih =>
    cases l with
    | nil => rfl
    | cons b l =>
      have := ih fun z hz => h z (by simp [hz])
      unfold redshiftOf at this ⊢
      simp only [List.map_cons] at this ⊢
      rw [interp1d, if_neg (not_lt.mpr (h a (by simp)).le), if_neg (not_le.mpr (h b (by simp)))]
      exact this

theorem neighbours (zs : List ℝ) (hs : zs.Pairwise (· < ·)) (a b : ℝ) (h : Adjacent zs a b) :
    a ∈ zs ∧ b ∈ zs ∧ a < b ∧ ∀ z ∈ zs, z ≤ a ∨ b ≤ z := by
  obtain ⟨p, s, rfl⟩ := h
  refine ⟨by simp, by simp, ?_, ?_⟩
  · exact (List.pairwise_cons.mp (List.pairwise_append.mp hs).2.1).1 b (by simp)
  · intro z hz
    obtain ⟨_, h2, h3⟩ := List.pairwise_append.mp hs
    rcases List.mem_append.mp hz with hz | hz
    · exact .inl (h3 z hz a (by simp)).le
    · rcases List.mem_cons.mp hz with rfl | hz
      · exact .inl le_rfl
      · rcases List.mem_cons.mp hz with rfl | hz
        · exact .inr le_rfl
        · exact .inr ((List.pairwise_cons.mp (List.pairwise_cons.mp h2).2).1 z hz).le

theorem sub_zero_pos (v : Vec) : (v - ⟨0, 0, 0⟩ : Vec) = v := by
  ext <;> simp [sub_x, sub_y, sub_z]

theorem eq_shift (pos observer : Vec) :
    cartesianToEquatorial (pos - observer) ⟨0, 0, 0⟩ = cartesianToEquatorial pos observer := by
  unfold cartesianToEquatorial
  simp only [sub_x, sub_y, sub_z, sub_zero]

theorem norm_smul (r : ℝ) (v : Vec) (hr : 0 ≤ r) (hv : v.norm = 1) : (r • v).norm = r := by
  have h : v.x ^ 2 + v.y ^ 2 + v.z ^ 2 = 1 := by
    have := congrArg (· ^ 2) hv
    simp only [Vec.norm] at this
    rwa [sq_sqrt (by positivity), one_pow] at this
  unfold Vec.norm
  rw [smul_x, smul_y, smul_z, show (r * v.x) ^ 2 + (r * v.y) ^ 2 + (r * v.z) ^ 2 = r ^ 2 by linear_combination r ^ 2 * h]
  exact sqrt_sq hr

/-- C93, partial: an object is put at a position by its sky coordinates and read off again by the same observer, with any
increasing distance. Right ascension (up to full turns) and declination come back, and the redshift found lies in the
interval of the grid that holds the redshift; it is the redshift itself if this is on the grid. Missing: between the points of
the grid the interpolation is not exact. -/
theorem sky_partial (dist : ℝ → ℝ) (hd : ∀ a b, 0 ≤ a → a < b → dist a < dist b) (z0 z1 : ℝ) (zs : List ℝ)
    (hs : (z0 :: z1 :: zs).Pairwise (· < ·)) (h0 : 0 ≤ z0) (c ra dec z : ℝ) (observer : Vec)
    (h1 : -90 < dec) (h2 : dec < 90) (hz0 : z0 ≤ z) (hz : ∃ b ∈ z1 :: zs, z ≤ b) (hpos : 0 < dist z) :
    ∃ z', cartesianToSky dist (z0 :: z1 :: zs) c (skyToCartesian dist ra dec z observer true) none observer =
        .ok (⟨mod ra 360, dec⟩, z') ∧
      (∃ a b, Adjacent (z0 :: z1 :: zs) a b ∧ a ≤ z ∧ z ≤ b ∧ a ≤ z' ∧ z' ≤ b) ∧
      (z ∈ z0 :: z1 :: zs → z' = z) := by
  have hmem : ∀ a ∈ z0 :: z1 :: zs, 0 ≤ a := by
    intro a ha
    rcases List.mem_cons.mp ha with rfl | ha
    · exact h0
    · exact h0.trans ((List.pairwise_cons.mp hs).1 a ha).le
  have hmono : ∀ a b, 0 ≤ a → a ≤ b → dist a ≤ dist b := by
    intro a b ha hab
    rcases hab.lt_or_eq with h | h
    · exact (hd a b ha h).le
    · rw [h]
  have hz' : 0 ≤ z := h0.trans hz0
  obtain ⟨b, hb, hzb⟩ := hz
  obtain ⟨z', hz'ok⟩ := redshift_found dist zs z0 z1 (dist z) (hmono z0 z h0 hz0) ⟨b, hb, hmono z b hz' hzb⟩
  have hgrid : ∀ a ∈ z0 :: z1 :: zs, ∀ b ∈ z0 :: z1 :: zs, a < b → dist a < dist b := fun a ha b _ hab => hd a b (hmem a ha) hab
  obtain ⟨a, b', hadj, d1, d2, e1, e2, e3⟩ := redshift_between dist _ hs hgrid _ _ hz'ok
  obtain ⟨ha, hb', hab, hno⟩ := neighbours _ hs a b' hadj
  have haz : a ≤ z := by
    by_contra h
    push Not at h
    exact absurd (hd z a hz' h) (not_lt.mpr d1)
  have hzb' : z ≤ b' := by
    by_contra h
    push Not at h
    exact absurd (hd b' z (hmem b' hb') h) (not_lt.mpr d2)
  refine ⟨z', ?_, ⟨a, b', hadj, haz, hzb', e1, e2⟩, ?_⟩
  · unfold cartesianToSky
    simp only []
    have en : (skyToCartesian dist ra dec z observer true - observer).norm = dist z := by
      have : skyToCartesian dist ra dec z observer true - observer = dist z • skyToUnitSphere ra dec true := by
        unfold skyToCartesian
        ext <;> simp [sub_x, sub_y, sub_z, add_x, add_y, add_z]
      rw [this]
      exact norm_smul _ _ hpos.le (unit_norm ra dec true)
    rw [en, hz'ok, eq_shift]
    obtain ⟨i1, i2⟩ := sky_inverse (dist z) ra dec observer hpos h1.le h2.le
    have : cartesianToEquatorial (skyToCartesian dist ra dec z observer true) observer = ⟨mod ra 360, dec⟩ := by
      apply Eq.ext
      · exact i2 h1 h2
      · exact i1
    rw [this]
  · intro hin
    have hdab := hgrid a ha b' hb' hab
    rcases hno z hin with h | h
    · have : z = a := le_antisymm h haz
      subst this
      have : (z' - z) * (dist b' - dist z) = 0 := by rw [e3]; ring
      rcases mul_eq_zero.mp this with h | h
      · linarith
      · linarith
    · have : z = b' := le_antisymm hzb' h
      subst this
      have : (z' - z) * (dist z - dist a) = 0 := by linear_combination e3
      rcases mul_eq_zero.mp this with h | h
      · linarith
      · linarith

/-- C93 fails between the points of the grid: with the distance `z²` and the grid 0, 1 the object at redshift 1/2 is read off
at redshift 1/4. -/
theorem between_grid : redshiftOf (fun z => z ^ 2) [0, 1] ((1 / 2 : ℝ) ^ 2) = .ok (1 / 4) := by
  simp only [redshiftOf, List.map_cons, List.map_nil, interp1d]
  rw [if_neg (by norm_num), if_pos (by norm_num)]
  norm_num

/-- C93: a velocity along the line of sight multiplies `1 + z` with `1 + v/c`, and one across it changes nothing. `w` is any
vector orthogonal to the line of sight. -/
theorem velocity_shift (dist : ℝ → ℝ) (zgrid : List ℝ) (c v : ℝ) (pos w observer : Vec)
    (hr : 0 < (pos - observer).norm) (hw : (pos - observer).dot w = 0) (eq : Eq) (z : ℝ)
    (h : cartesianToSky dist zgrid c pos none observer = .ok (eq, z)) :
    ∃ z', cartesianToSky dist zgrid c pos (some ((v / (pos - observer).norm) • (pos - observer) + w)) observer = .ok (eq, z') ∧
      1 + z' = (1 + v / c) * (1 + z) := by
  unfold cartesianToSky at h ⊢
  simp only [] at h ⊢
  cases hz : redshiftOf dist zgrid (pos - observer).norm with
  | error e => rw [hz] at h; cases h
  | ok z0 =>
    rw [hz] at h
    simp only [Except.ok.injEq, Prod.mk.injEq] at h
    obtain ⟨rfl, rfl⟩ := h
    refine ⟨_, rfl, ?_⟩
    have hn : (pos - observer).norm ^ 2 = (pos - observer).dot (pos - observer) := by
      unfold Vec.norm Vec.dot
      rw [sq_sqrt (by positivity)]; ring
    generalize (pos - observer) = p at *
    have hdot : p.dot ((v / p.norm) • p + w) = v * p.norm := by
      have e : p.dot ((v / p.norm) • p + w) = v / p.norm * p.dot p + p.dot w := by
        unfold Vec.dot
        rw [add_x, add_y, add_z, smul_x, smul_y, smul_z]; ring
      rw [e, hw, ← hn]; field_simp; ring
    rw [hdot, mul_div_assoc, div_self hr.ne']
    ring

/-- C93 fails at the poles: the right ascension is lost. -/
theorem pole (r ra : ℝ) : (cartesianToEquatorial (r • skyToUnitSphere ra 90 true + ⟨0, 0, 0⟩) ⟨0, 0, 0⟩).ra = 0 := by
  have e : deg2rad 90 = π / 2 := by unfold deg2rad; ring
  unfold cartesianToEquatorial
  simp only [add_x, add_y, add_z, smul_x, smul_y, smul_z, skyToUnitSphere, if_true, e, cos_pi_div_two]
  have : arctan2 (r * (0 * sin (deg2rad ra)) + 0 - 0) (r * (0 * cos (deg2rad ra)) + 0 - 0) = 0 := by
    unfold arctan2
    simp only [zero_mul, mul_zero, add_zero, sub_zero]
    exact Complex.arg_zero
  rw [this]
  unfold rad2deg mod
  norm_num

/-- The theorems are not empty: an increasing distance and a grid. -/
theorem example_grid : ∃ dist : ℝ → ℝ, (∀ a b, 0 ≤ a → a < b → dist a < dist b) ∧ dist 0 = 0 ∧ 0 < dist 1 ∧
    ([0, 1, 2] : List ℝ).Pairwise (· < ·) :=
  ⟨fun z => 3 * z, fun a b _ h => by linarith, by simp, by norm_num, by
    simp only [List.pairwise_cons, List.mem_cons, List.not_mem_nil, or_false, forall_eq_or_imp, forall_eq]
    norm_num⟩

end NBK.Sky
