import Verif.FofObj.Props
import Mathlib.Tactic.IntervalCases
import Mathlib.Tactic.NormNum

/-!
# A concrete case for the object `FOF`

Three particles on two ranks in a periodic box of side 10: the first two are friends across the boundary, the third is alone.
-/
set_option linter.unusedSimpArgs false
namespace NBK.FofObj
open NBK

def boxSource : Source where
  ranks := [[⟨![98 / 10, 1, 2], ![3, 0, 0], ![0, 0, 0], 1⟩, ⟨![1 / 10, 1, 2], ![5, 0, 0], ![0, 0, 0], 2⟩], [⟨![5, 1, 2], ![7, 0, 0], ![0, 0, 0], 3⟩]]
  columns := ["Position", "Velocity", "Density"]
  attrs := [("BoxSize", .vec [10, 10, 10])]

def boxArgs : Args where
  linkingLength := 1
  nmin := 1
  absolute := true

def boxEnv : Env where
  root x _ := x
  argsort := Fof.stableArgsort
  sort key l := l.mergeSort fun a b => key a ≤ key b
  held _ _ _ _ := [[0, 1, 2], [2]]
  kd _ _ _ _ := [[0, 0, 1], [0]]

abbrev boxVec : Vec := ![10, 10, 10]

theorem friends_iff (p q : Nat) : Friends boxSource.all 1 (some boxVec) p q ↔ (p = q ∧ p < 3) ∨ (p = 0 ∧ q = 1) ∨ (p = 1 ∧ q = 0) := by
  constructor
  · rintro ⟨x, y, hx, hy, k, hk⟩
    have hp : p < 3 := (List.getElem?_eq_some_iff.mp hx).1
    have hq : q < 3 := (List.getElem?_eq_some_iff.mp hy).1
    have h0 : (x.pos 0 - y.pos 0 + k 0 * 10) ^ 2 ≤ 1 := by
      have e0 : (some boxVec).elim 0 (fun v : Vec => v 0) = (10 : ℚ) := rfl
      rw [e0] at hk
      nlinarith [sq_nonneg (x.pos 1 - y.pos 1 + k 1 * ((some boxVec).elim 0 (fun v : Vec => v 1))), sq_nonneg (x.pos 2 - y.pos 2 + k 2 * ((some boxVec).elim 0 (fun v : Vec => v 2)))]
    have bad : ∀ d : ℚ, 4 ≤ |d| → |d| ≤ 5 → x.pos 0 - y.pos 0 = d → False := by
      intro d d1 d2 hd
      rw [hd] at h0
      have a1 : |d + k 0 * 10| ≤ 1 := by
        have := abs_le_of_sq_le_sq (a := d + k 0 * 10) (b := 1) (by simpa using h0) (by norm_num)
        exact this
      rcases abs_le.mp a1 with ⟨b1, b2⟩
      rcases abs_le.mp d2 with ⟨c1, c2⟩
      have k1 : ((-1 : ℤ) : ℚ) < k 0 := by push_cast; linarith
      have k2 : (k 0 : ℚ) < ((1 : ℤ) : ℚ) := by push_cast; linarith
      have k1' : (-1 : ℤ) < k 0 := by exact_mod_cast k1
      have k2' : k 0 < (1 : ℤ) := by exact_mod_cast k2
      have : k 0 = 0 := by omega
      rw [this] at a1
      simp only [Int.cast_zero, zero_mul, add_zero] at a1
      linarith
    interval_cases p <;> interval_cases q <;> simp [boxSource, Source.all] at hx hy ⊢ <;> subst hx <;> subst hy
    · exact bad (48 / 10) (by norm_num [abs_of_pos]) (by norm_num [abs_of_pos]) (by norm_num [Matrix.cons_val_zero])
    · exact bad (- 49 / 10) (by norm_num [abs_of_neg]) (by norm_num [abs_of_neg]) (by norm_num [Matrix.cons_val_zero])
    · exact bad (- 48 / 10) (by norm_num [abs_of_neg]) (by norm_num [abs_of_neg]) (by norm_num [Matrix.cons_val_zero])
    · exact bad (49 / 10) (by norm_num [abs_of_pos]) (by norm_num [abs_of_pos]) (by norm_num [Matrix.cons_val_zero])
  · rintro (⟨rfl, h⟩ | ⟨rfl, rfl⟩ | ⟨rfl, rfl⟩)
    · have hl : p < boxSource.all.length := h
      exact ⟨_, _, List.getElem?_eq_getElem hl, List.getElem?_eq_getElem hl, fun _ => 0, by norm_num⟩
    · refine ⟨_, _, rfl, rfl, ![-1, 0, 0], ?_⟩
      show ((98 / 10 - 1 / 10 + ((-1 : ℤ) : ℚ) * 10) ^ 2 + (1 - 1 + ((0 : ℤ) : ℚ) * 10) ^ 2 + (2 - 2 + ((0 : ℤ) : ℚ) * 10) ^ 2 : ℚ) ≤ 1 ^ 2
      norm_num
    · refine ⟨_, _, rfl, rfl, ![1, 0, 0], ?_⟩
      show ((1 / 10 - 98 / 10 + ((1 : ℤ) : ℚ) * 10) ^ 2 + (1 - 1 + ((0 : ℤ) : ℚ) * 10) ^ 2 + (2 - 2 + ((0 : ℤ) : ℚ) * 10) ^ 2 : ℚ) ≤ 1 ^ 2
      norm_num

theorem chains (p q : Nat) (h : Relation.EqvGen (Friends boxSource.all 1 (some boxVec)) p q) : p = q ∨ (p < 2 ∧ q < 2) := by
  induction h with
  | rel x y h => rw [friends_iff] at h; omega
  | refl x => left; rfl
  | symm x y _ ih => omega
  | trans x y z _ _ ih1 ih2 => omega

theorem local_chains (h : List Nat) (p q : Nat) (hc : Fof.LocalConn (Friends boxSource.all 1 (some boxVec)) h p q) : p = q ∨ (p < 2 ∧ q < 2) := by
  induction hc with
  | rel x y h => have := h.1; rw [friends_iff] at this; omega
  | refl x => left; rfl
  | symm x y _ ih => omega
  | trans x y z _ _ ih1 ih2 => omega

theorem box_decomposed : Fof.Decomposed (Friends boxSource.all 1 (some boxVec)) [[0, 1, 2], [2]] [2, 1] [[0, 0, 1], [0]] where
  covers p hp := ⟨[0, 1, 2], by simp, by simp at hp ⊢; omega⟩
  inside h hh p hp := by
    simp only [List.mem_cons, List.not_mem_nil, or_false] at hh
    rcases hh with rfl | rfl <;> simp at hp ⊢ <;> omega
  shares p q h := by
    rw [friends_iff] at h
    exact ⟨[0, 1, 2], by simp, by simp; omega, by simp; omega⟩
  local_labels := by
    refine .cons ⟨rfl, ⟨2, by intro x; simp; omega⟩, ?_⟩ (.cons ⟨rfl, ⟨1, by intro x; simp⟩, ?_⟩ .nil)
    · intro a b p q ha hb
      have ha' : a < 3 ∧ p = a := by
        obtain ⟨h1, h2⟩ := List.getElem?_eq_some_iff.mp ha
        simp at h1
        interval_cases a <;> simp at h2 <;> omega
      have hb' : b < 3 ∧ q = b := by
        obtain ⟨h1, h2⟩ := List.getElem?_eq_some_iff.mp hb
        simp at h1
        interval_cases b <;> simp at h2 <;> omega
      obtain ⟨ha1, rfl⟩ := ha'
      obtain ⟨hb1, rfl⟩ := hb'
      constructor
      · intro h
        by_cases e : p = q
        · subst e; exact .refl _
        · have : (p = 0 ∧ q = 1) ∨ (p = 1 ∧ q = 0) := by
            interval_cases p <;> interval_cases q <;> simp at h e ⊢
          rcases this with ⟨rfl, rfl⟩ | ⟨rfl, rfl⟩
          · exact .rel _ _ ⟨(friends_iff _ _).mpr (by simp), by simp, by simp⟩
          · exact .rel _ _ ⟨(friends_iff _ _).mpr (by simp), by simp, by simp⟩
      · intro h
        have := local_chains _ _ _ h
        interval_cases p <;> interval_cases q <;> simp at this ⊢
    · intro a b p q ha hb
      obtain ⟨h1, h2⟩ := List.getElem?_eq_some_iff.mp ha
      obtain ⟨h3, h4⟩ := List.getElem?_eq_some_iff.mp hb
      simp at h1 h3
      subst h1 h3
      simp at h2 h4
      subst h2 h4
      exact ⟨fun _ => .refl _, fun _ => rfl⟩

/-- The hypotheses of `fof_halos` can be met: one halo of two particles, whose centre is found across the boundary of the box; `nmin = 1` drops the group of one. -/
theorem box_halos (mass : ℚ) : ∃ (fuel : Nat) (o : Obj) (halos : List (List Halo)) (attrs : Dict) (h : Halo), new boxEnv fuel boxSource boxArgs = some (.ok o) ∧
    toHalos boxEnv o mass 0 "vir" "cm" "Density" = .ok (halos, attrs) ∧ halos.flatten = [h] ∧ h.mass = mass * 2 ∧ h.pos 0 = some (995 / 100) ∧ h.vel 0 = some 4 := by
  obtain ⟨f0, o, comps, halos, attrs, h1, h2, h3, h4, h5⟩ := fof_halos boxEnv Fof.stableArgsort_isArgsort Fof.isSort_mergeSort boxSource boxArgs (by simp [boxSource])
    (by simp [boxSource]) (by simp [boxSource]) (by simp [boxSource]) 1 rfl (some (10, 10, 10)) (.inr ⟨10, 10, 10, rfl, rfl, rfl⟩)
    (by
      intro x y z hx p hp
      cases hx
      simp only [boxSource, Source.all, List.flatten_cons, List.flatten_nil, List.append_nil, List.cons_append, List.nil_append, List.mem_cons, List.not_mem_nil, or_false] at hp
      rcases hp with rfl | rfl | rfl <;>
        exact ⟨⟨by norm_num [Matrix.cons_val_zero], by norm_num [Matrix.cons_val_zero]⟩, ⟨by norm_num [Matrix.cons_val_one], by norm_num [Matrix.cons_val_one]⟩,
          ⟨by show (0 : ℚ) ≤ 2; norm_num, by show (2 : ℚ) < 10; norm_num⟩⟩)
    (by simp [boxSource]) box_decomposed "cm" (.inl rfl) "Density" (by simp) mass 0 "vir"
  have hlen : boxSource.all.length = 3 := rfl
  have c0 : ∀ p < 2, component (Friends boxSource.all 1 (some boxVec)) 3 p = [0, 1] := by
    intro p hp
    have e : component (Friends boxSource.all 1 (some boxVec)) 3 p = (List.range 3).filter fun q => decide (q < 2) := by
      unfold component
      apply List.filter_congr
      intro q hq
      simp only [decide_eq_decide]
      have : q < 3 := List.mem_range.mp hq
      constructor
      · intro h; have := chains _ _ h; omega
      · intro h
        by_cases e : p = q
        · subst e; exact .refl _
        · exact .rel _ _ ((friends_iff _ _).mpr (by omega))
    rw [e]; rfl
  have c2 : component (Friends boxSource.all 1 (some boxVec)) 3 2 = [2] := by
    have e : component (Friends boxSource.all 1 (some boxVec)) 3 2 = (List.range 3).filter fun q => decide (q = 2) := by
      unfold component
      apply List.filter_congr
      intro q hq
      simp only [decide_eq_decide]
      constructor
      · intro h; have := chains _ _ h; omega
      · rintro rfl; exact .refl _
    rw [e]; rfl
  have hm : ∀ c, c ∈ comps ↔ c = [0, 1] := by
    intro c
    rw [h2.mem c, hlen]
    constructor
    · rintro ⟨p, hp, hc, hn⟩
      by_cases hp2 : p < 2
      · rw [hc]; exact c0 p hp2
      · have : p = 2 := by omega
        subst this
        have hc' : c = [2] := hc.trans c2
        rw [hc'] at hn
        simp [boxArgs] at hn
    · rintro rfl
      exact ⟨0, by omega, (c0 0 (by omega)).symm, by simp [boxArgs]⟩
  have hcomps : comps = [[0, 1]] := by
    match comps, hm, h2.nodup with
    | [], hm, _ => exact absurd ((hm [0, 1]).mpr rfl) (by simp)
    | [a], hm, _ => rw [(hm a).mp (by simp)]
    | a :: b :: l, hm, hd =>
      have ea := (hm a).mp (by simp)
      have eb := (hm b).mp (by simp)
      rw [ea, eb] at hd
      simp at hd
  subst hcomps
  obtain ⟨h, e1, e2⟩ := h5 0 [0, 1] rfl
  obtain ⟨x, hx⟩ := List.length_eq_one_iff.mp h4
  rw [hx] at e1
  cases e1
  have hmem : members boxSource [0, 1] = [⟨![98 / 10, 1, 2], ![3, 0, 0], ![0, 0, 0], 1⟩, ⟨![1 / 10, 1, 2], ![5, 0, 0], ![0, 0, 0], 2⟩] := rfl
  refine ⟨f0, o, halos, attrs, h, h1 f0 (le_refl _), h3, hx, by rw [e2.mass]; rfl, ?_, ?_⟩
  · have := (e2.pos 0).2 10 rfl (fun x => if x < 5 then 1 else 0)
    simp only [if_true, hmem, List.map_cons, List.map_nil, Matrix.cons_val_zero] at this
    obtain ⟨z, z1, z2, z3, j, z4⟩ := this (by
      intro x hx y hy
      simp only [List.mem_cons, List.not_mem_nil, or_false] at hx hy
      rcases hx with rfl | rfl <;> rcases hy with rfl | rfl <;> norm_num [abs_of_pos, abs_of_neg])
    rw [z1, z4]
    norm_num [mean] at z4 ⊢
    rw [z4] at z2 z3
    have k1 : ((-1 : ℤ) : ℚ) < j := by push_cast; linarith
    have k2 : (j : ℚ) < ((1 : ℤ) : ℚ) := by push_cast; linarith
    have k1' : (-1 : ℤ) < j := by exact_mod_cast k1
    have k2' : j < (1 : ℤ) := by exact_mod_cast k2
    have : j = 0 := by omega
    exact this
  · have := e2.vel 0
    simp only [if_true, hmem, List.map_cons, List.map_nil, Matrix.cons_val_zero] at this
    rw [this]
    norm_num [mean]

/-- The two linking lengths for a box of side 8 with one particle. -/
example : ∃ ll ll', linking ⟨fun x n => if n = 3 ∧ x = 8 then 2 else if x = 512 then 8 else x, id, fun _ l => l, fun _ _ _ _ => [], fun _ _ _ _ => []⟩
      ⟨[[⟨![0, 0, 0], ![0, 0, 0], ![0, 0, 0], 1⟩]], ["Position"], [("BoxSize", .num 8)]⟩ ⟨1 / 5, 1, false, true, 1⟩ = .ok ll ∧
    linking ⟨fun x n => if n = 3 ∧ x = 8 then 2 else if x = 512 then 8 else x, id, fun _ l => l, fun _ _ _ _ => [], fun _ _ _ _ => []⟩
      ⟨[[⟨![0, 0, 0], ![0, 0, 0], ![0, 0, 0], 1⟩]], ["Position"], [("BoxSize", .vec [8, 8, 8])]⟩ ⟨1 / 5, 1, false, true, 1⟩ = .ok ll' ∧ ll = 2 / 5 ∧ ll' = 8 / 5 := by
  refine ⟨2 / 5, 8 / 5, ?_, ?_, rfl, rfl⟩ <;> decide +kernel

end NBK.FofObj
