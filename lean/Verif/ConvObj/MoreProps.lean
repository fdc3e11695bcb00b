import Verif.ConvObj.StateProps
set_option linter.unusedSimpArgs false
/-!
# C109: the tables and conversions used in a run
-/
namespace NBK.ConvObj

/-- C109: the compensation is that of the window, with shot noise if the mesh is not interlaced. -/
theorem compensation_window (m : Mesh) (s : String) : compensation m = some s ↔
    ∃ w ∈ [("cic", "CIC"), ("tsc", "TSC"), ("pcs", "PCS")], m.resampler = w.1 ∧ s = "Compensate" ++ w.2 ++ (if m.interlaced then "" else "Shotnoise") := by
  unfold compensation
  generalize m.resampler = r
  cases m.interlaced
  all_goals
    simp only [List.mem_cons, List.not_mem_nil, or_false, exists_eq_or_imp, exists_eq_left, Bool.false_eq_true, if_false, if_true]
    by_cases h1 : r = "cic"
    · subst h1
      simp [eq_comm]
    · by_cases h2 : r = "tsc"
      · subst h2
        simp [eq_comm]
      · by_cases h3 : r = "pcs"
        · subst h3
          simp [eq_comm]
        · simp [h1, h2, h3]

/-- C109: a single multipole is a list with it. -/
theorem poles_one (l : Nat) : (Poles.one l).list = (Poles.many [l]).list := rfl

/-- C109: of the metadata of a painted mesh exactly the entries of the data and the randoms are taken over, below the prefix. -/
theorem copyMeta_spec (m : List (String × ℚ)) (pre k : String) (v : ℚ) : (k, v) ∈ copyMeta m pre ↔
    ∃ k0, (k0, v) ∈ m ∧ ((∃ t, k0.toList = "data.".toList ++ t) ∨ ∃ t, k0.toList = "randoms.".toList ++ t) ∧
      ((pre = "" ∧ k = k0) ∨ (pre ≠ "" ∧ k = pre ++ "." ++ k0)) := by
  unfold copyMeta
  rw [List.mem_map]
  constructor
  · rintro ⟨⟨k0, v0⟩, hm, he⟩
    rw [List.mem_filter] at hm
    injection he with h1 h2
    dsimp only at h1 h2
    subst h2
    refine ⟨k0, hm.1, ?_, ?_⟩
    · have := hm.2
      rw [Bool.or_eq_true, List.isPrefixOf_iff_prefix, List.isPrefixOf_iff_prefix] at this
      rcases this with ⟨t, ht⟩ | ⟨t, ht⟩
      · exact Or.inl ⟨t, ht.symm⟩
      · exact Or.inr ⟨t, ht.symm⟩
    · by_cases hp : pre = ""
      · rw [if_pos hp] at h1
        exact Or.inl ⟨hp, h1.symm⟩
      · rw [if_neg hp] at h1
        exact Or.inr ⟨hp, h1.symm⟩
  · rintro ⟨k0, hm, hd, hk⟩
    refine ⟨(k0, v), List.mem_filter.mpr ⟨hm, ?_⟩, ?_⟩
    · rw [Bool.or_eq_true, List.isPrefixOf_iff_prefix, List.isPrefixOf_iff_prefix]
      rcases hd with ⟨t, ht⟩ | ⟨t, ht⟩
      · exact Or.inl ⟨t, ht.symm⟩
      · exact Or.inr ⟨t, ht.symm⟩
    · rcases hk with ⟨hp, rfl⟩ | ⟨hp, rfl⟩
      · rw [if_pos hp]
      · rw [if_neg hp]

/-- C109: two meshes are correlated if their `alpha` agree to a part in a thousand (and 1e-8), or are both infinite. -/
theorem sameAlpha_spec (x y : Option ℚ) : sameAlpha x y = true ↔
    (∃ a b, x = some a ∧ y = some b ∧ |a - b| ≤ 1 / 10 ^ 8 + |b| / 1000) ∨ (x = none ∧ y = none) := by
  cases x with
  | none => cases y <;> simp [sameAlpha]
  | some a =>
    cases y with
    | none => simp [sameAlpha]
    | some b =>
      unfold sameAlpha Fkp.allclose
      rw [decide_eq_true_eq, one_div_mul_eq_div]
      constructor
      · intro h
        exact Or.inl ⟨a, b, rfl, rfl, h⟩
      · rintro (⟨a', b', h1, h2, h⟩ | ⟨h1, _⟩)
        · injection h1 with h1
          injection h2 with h2
          subst h1
          subst h2
          exact h
        · cases h1

end NBK.ConvObj
