import Verif.LogObj.Props

/-!
# C117: a concrete lognormal catalog, and what goes wrong
-/
set_option linter.unusedSimpArgs false
namespace NBK.LogObj
open NBK.Mock (Vec Cell)
open NBK.Plain (Tok Dict put get update get_put get_update)

/-- Two objects in every other cell, two ranks; the displacement is the index of the cell plus the cosmology seed. -/
def exEnv : Env Nat where
  ranks := 2
  growth := fun c z => c / (1 + z)
  efunc := fun _ z => 1 + z
  delta := fun _ _ _ _ _ _ _ => 0
  disp := fun _ s _ _ _ _ c => ⟨c.i + s.getD 0, c.j, c.k⟩
  exp := fun _ => 1
  chunk := 3
  seeds1 := fun s i => s.getD 0 + i
  seeds2 := fun s i => s.getD 0 + i + 7
  poisson := fun s rows => rows.mapIdx fun i _ => 2 * ((s + i) % 2)
  uniform := fun s rows => rows.mapIdx fun i _ => ⟨1 / (s + i + 1), 0, 1 / 2⟩
  argsort1 := Mock.exSort
  argsort2 := Mock.exSort
  rav := fun n => [(Mock.cells n).take 1, (Mock.cells n).drop 1]
  own := fun n => [(Mock.cells n).drop 2, (Mock.cells n).take 2]

/-- The power spectrum knows a cosmology; another one is passed. -/
def exArgs : Args where
  plin := ⟨1, some 4, some 1, some [(sCosmo, .cosmo 4), (sNbar, .num 9)]⟩
  nbar := 1
  boxSize := .vec [2, 2, 6]
  nmesh := .vec [2, 1, 2]
  cosmo := some 5
  seed := some 4

theorem ex_given : Given exEnv exArgs 11 5 1 4 4 ⟨2, 1, 2⟩ ⟨2, 2, 6⟩ where
  hcosmo := Or.inl rfl
  hredshift := Or.inr ⟨rfl, rfl⟩
  hseed := Or.inl rfl
  hcosmoSeed := Or.inr ⟨rfl, rfl⟩
  ranks := by decide
  mesh := by decide +kernel
  box := rfl

theorem ex_ok : Mock.Ok (mockEnv exEnv exArgs (some 4) (some 4) ⟨2, 1, 2⟩ ⟨2, 2, 6⟩) (exEnv.rav ⟨2, 1, 2⟩) (exEnv.own ⟨2, 1, 2⟩) where
  chunk := by decide
  poisson := ⟨by intro s rows; simp [exEnv, mockEnv], by
    intro s rows n
    apply List.ext_getElem?
    intro i
    simp only [exEnv, mockEnv, List.getElem?_mapIdx, List.getElem?_take]
    split <;> simp⟩
  uniform := ⟨by intro s rows; simp [exEnv, mockEnv], by
    intro s rows n
    apply List.ext_getElem?
    intro i
    simp only [exEnv, mockEnv, List.getElem?_mapIdx, List.getElem?_take]
    split <;> simp⟩
  sort1 := Mock.exSort_contract
  sort2 := Mock.exSort_contract
  hx := by decide +kernel
  hy := by decide +kernel
  hz := by decide +kernel
  rav := by decide +kernel
  own := by decide +kernel

theorem ex_objects : Mock.objects (mockEnv exEnv exArgs (some 4) (some 4) ⟨2, 1, 2⟩ ⟨2, 2, 6⟩) = [⟨0, 0, 1⟩, ⟨0, 0, 1⟩, ⟨1, 0, 1⟩, ⟨1, 0, 1⟩] := by
  decide +kernel

/-- The case behind the theorems, and a negation: the meta-data say the cosmology of the power spectrum, not the one that is used for the velocities. -/
theorem cosmo_stale : ∃ o, new exEnv exArgs 11 = .ok o ∧ o.rows.flatten.length = 4 ∧ o.rows.map List.length = [2, 2] ∧ o.cosmo = 5 ∧
    get sCosmo o.attrs = some (.cosmo 4) ∧ get sNbar o.attrs = some (.num 1) ∧
    ∃ r, o.rows.flatten[2]? = some r ∧ r.off = ⟨25 / 2, 0, 5 / 2⟩ := by
  obtain ⟨o, h1, h2, h3, h4, h5, h6, h7⟩ := catalog_spec_partial exEnv exArgs 11 5 1 4 4 ⟨2, 1, 2⟩ ⟨2, 2, 6⟩ ex_given
    ⟨by norm_num, by norm_num, by norm_num⟩ _ rfl ex_ok (by rw [ex_objects]; exact List.cons_ne_nil _ _)
  obtain ⟨a1, _, _, _, _, _, _, _, _, _, a2⟩ := attrs_spec_partial exEnv exArgs 11 5 1 4 4 ⟨2, 1, 2⟩ ⟨2, 2, 6⟩ ex_given
    (by intro a ha; cases ha; decide) o h1
  refine ⟨o, h1, by rw [h5, ex_objects]; rfl, by rw [h6]; decide +kernel, h2, ?_, a1, ?_⟩
  · rw [a2 sCosmo (by decide) _ rfl]; rfl
  · obtain ⟨u, r, _, r2, _, _, _, r3, _⟩ := h7 2 ⟨1, 0, 1⟩ (by rw [ex_objects]; rfl)
    exact ⟨r, r2, by rw [r3]; simp only [exEnv, mockEnv, Option.getD_some]; norm_num⟩

/-- With exact numbers the remainder is the one of the model. -/
theorem mod_exact (x L : ℚ) (hL : 0 < L) : modRounded id x L = Mock.wrap x L := by
  unfold modRounded Mock.wrap
  by_cases h : 0 ≤ x / L
  · rw [if_pos h]
    have := (Mock.wrap_mem x L hL).1
    unfold Mock.wrap at this
    rw [if_neg (not_lt.2 this)]
  · rw [if_neg h]
    have hc := Int.ceil_lt_add_one (x / L)
    have hc' := Int.le_ceil (x / L)
    by_cases hi : x - L * ⌈x / L⌉ < 0
    · rw [if_pos hi]
      have hne : x / L ≠ ⌈x / L⌉ := by
        intro he
        rw [← he, mul_div_cancel₀ _ hL.ne'] at hi
        simp at hi
      have hlt : x / L < ⌈x / L⌉ := lt_of_le_of_ne hc' hne
      have : ⌊x / L⌋ = ⌈x / L⌉ - 1 := by
        rw [Int.floor_eq_iff]
        push_cast
        constructor <;> linarith
      rw [this]
      push_cast
      simp only [id]
      ring
    · rw [if_neg hi]
      have h1 : L * ⌈x / L⌉ ≤ x := by linarith
      have h2 : (⌈x / L⌉ : ℚ) ≤ x / L := by rw [le_div_iff₀ hL]; linarith
      have : ⌊x / L⌋ = ⌈x / L⌉ := by
        rw [Int.floor_eq_iff]
        constructor <;> linarith
      rw [this]

/-- Negation: with numbers of finite precision a position may be at the far edge of the box, outside of `[0, L)`. This holds for every rounding that has `L`
and everything below zero by less than some `ε` rounded to it. -/
theorem mod_edge (rnd : ℚ → ℚ) (L ε : ℚ) (hL : 0 < L) (hε : 0 < ε) (hεL : ε < L) (hr : rnd (L - ε) = L) : modRounded rnd (-ε) L = L := by
  unfold modRounded
  have h1 : ¬ 0 ≤ -ε / L := by
    rw [not_le]
    exact div_neg_of_neg_of_pos (by linarith) hL
  have h2 : ⌈-ε / L⌉ = 0 := by
    rw [Int.ceil_eq_iff]
    constructor
    · have : -1 * L < -ε := by linarith
      have := (lt_div_iff₀ hL).2 this
      push_cast; linarith
    · push_cast; exact (not_le.1 h1).le
  rw [if_neg h1, h2]
  simp only [Int.cast_zero, mul_zero, sub_zero]
  rw [if_pos (by linarith)]
  rw [show -ε + L = L - ε by ring, hr]

/-- Rounding to multiples of `2⁻²³`, which is what `f4` numbers between 1 and 2 are. -/
example : modRounded (fun x => (⌊x * 2 ^ 23 + 1 / 2⌋ : ℚ) / 2 ^ 23) (-(1 / 2 ^ 25)) (3 / 2) = 3 / 2 :=
  mod_edge _ _ _ (by norm_num) (by norm_num) (by norm_num) (by norm_num)

end NBK.LogObj
