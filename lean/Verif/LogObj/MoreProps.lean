import Verif.LogObj.CaseProps
set_option linter.unusedSimpArgs false
/-!
# C117: sizes given as lists, and which seed is used where
-/
namespace NBK.LogObj
open NBK.Mock (Vec Cell)

/-- C117: one number, alone or in a list, stands for three; three stand for themselves; other lists are refused. -/
theorem three_spec (s : Size) (v : Vec) : three s = .ok v ↔
    (∃ q, (s = .num q ∨ s = .vec [q]) ∧ v = ⟨q, q, q⟩) ∨ s = .vec [v.x, v.y, v.z] := by
  cases s with
  | num q =>
    constructor
    · intro h
      injection h with h
      exact Or.inl ⟨q, Or.inl rfl, h.symm⟩
    · rintro (⟨q', h | h, rfl⟩ | h)
      · injection h with h
        rw [h]
        rfl
      · cases h
      · cases h
  | vec l =>
    match l with
    | [] =>
      constructor
      · intro h; cases h
      · rintro (⟨q', h | h, rfl⟩ | h) <;> cases h
    | [q] =>
      constructor
      · intro h
        injection h with h
        exact Or.inl ⟨q, Or.inr rfl, h.symm⟩
      · rintro (⟨q', h | h, rfl⟩ | h)
        · cases h
        · injection h with h
          injection h with h
          rw [h]
          rfl
        · cases h
    | [x, y] =>
      constructor
      · intro h; cases h
      · rintro (⟨q', h | h, rfl⟩ | h) <;> cases h
    | [x, y, z] =>
      constructor
      · intro h
        injection h with h
        subst h
        exact Or.inr rfl
      · rintro (⟨q', h | h, rfl⟩ | h)
        · cases h
        · cases h
        · injection h with h
          injection h with h1 h
          injection h with h2 h
          injection h with h3 h
          rw [h1, h2, h3]
          rfl
    | _ :: _ :: _ :: _ :: _ =>
      constructor
      · intro h; cases h
      · rintro (⟨q', h | h, rfl⟩ | h) <;> cases h

/-- C117: the catalog depends on the two fields of the given power spectrum, flags and cosmological seed alone, and on the generators of the other seed
alone. -/
theorem source_depends {σ : Type} (e e' : Env σ) (g : Args) (cosmo : Nat) (z : ℚ) (seed cosmoSeed : Option Nat)
    (h1 : e'.delta g.plin.id cosmoSeed g.unitary g.inverted = e.delta g.plin.id cosmoSeed g.unitary g.inverted)
    (h2 : e'.disp g.plin.id cosmoSeed g.unitary g.inverted = e.disp g.plin.id cosmoSeed g.unitary g.inverted)
    (h3 : e'.seeds1 seed = e.seeds1 seed) (h4 : e'.seeds2 seed = e.seeds2 seed)
    (h5 : e'.growth cosmo z = e.growth cosmo z) (h6 : e'.efunc cosmo z = e.efunc cosmo z) (h7 : e'.exp = e.exp) (h8 : e'.chunk = e.chunk)
    (h9 : e'.poisson = e.poisson) (h10 : e'.uniform = e.uniform) (h11 : e'.argsort1 = e.argsort1) (h12 : e'.argsort2 = e.argsort2)
    (h13 : e'.rav = e.rav) (h14 : e'.own = e.own) :
    makeSource e' g cosmo z seed cosmoSeed = makeSource e g cosmo z seed cosmoSeed := by
  have hm : ∀ n b, mockEnv e' g seed cosmoSeed n b = mockEnv e g seed cosmoSeed n b := fun n b => by
    unfold mockEnv
    rw [h1, h2, h3, h4, h7, h8, h9, h10, h11, h12]
  unfold makeSource
  simp only [hm, h5, h6, h13, h14]

end NBK.LogObj
