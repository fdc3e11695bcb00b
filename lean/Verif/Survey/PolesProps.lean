import Verif.Survey.MoreProps
import Verif.Survey.CaseProps

/-!
# `ConvolvedFFTPower` of catalogs (C137): the multipoles do not depend on which others are asked for
-/
set_option linter.unusedSimpArgs false
set_option synthInstance.maxSize 1000
namespace NBK.Survey
open NBK

variable {n : Nat} {K : Type} [CommRing K] [Algebra ℚ K]

theorem digits_inj (a b : Nat) (h : (toString a).toList = (toString b).toList) : a = b := by
  rw [Nat.toString_eq_ofList_toDigits, Nat.toString_eq_ofList_toDigits, String.toList_ofList, String.toList_ofList] at h
  have := congrArg (Nat.ofDigitChars 10 · 0) h
  simpa [Nat.ofDigitChars_ten_toDigits] using this

/-- The names of the columns of different multipoles are different. -/
theorem pole_name_inj (a b : Nat) (s t : String) (hs : s.toList.length = t.toList.length) (h : "power_" ++ toString a ++ s = "power_" ++ toString b ++ t) : a = b ∧ s = t := by
  have h' := congrArg String.toList h
  simp only [String.toList_append, List.append_assoc] at h'
  have h2 := List.append_cancel_left h'
  obtain ⟨h3, h4⟩ := List.append_inj' h2 hs
  exact ⟨digits_inj a b h3, String.toList_inj.mp h4⟩

/-- The columns of two multipoles that have the same name are the same if their values are. -/
theorem cols_same (a b : Nat) (f : Nat → List (Option ℚ × Option ℚ)) (c c' : Binned.Col) (hc : c ∈ cols a (f a)) (hc' : c' ∈ cols b (f b)) (hn : c.name = c'.name) :
    c = c' := by
  unfold cols at hc hc'
  simp only [List.mem_cons, List.not_mem_nil, or_false] at hc hc'
  rcases hc with rfl | rfl <;> rcases hc' with rfl | rfl
  · obtain ⟨rfl, -⟩ := pole_name_inj a b ".real" ".real" (by decide) hn; rfl
  · obtain ⟨-, h⟩ := pole_name_inj a b ".real" ".imag" (by decide) hn; exact absurd h (by decide)
  · obtain ⟨-, h⟩ := pole_name_inj a b ".imag" ".real" (by decide) hn; exact absurd h (by decide)
  · obtain ⟨rfl, -⟩ := pole_name_inj a b ".imag" ".imag" (by decide) hn; rfl

theorem cols_name (a : Nat) (v : List (Option ℚ × Option ℚ)) (c : Binned.Col) (hc : c ∈ cols a v) : c.name ≠ "k" ∧ c.name ≠ "modes" := by
  have key : ∀ s : String, ("power_" ++ s) ≠ "k" ∧ ("power_" ++ s) ≠ "modes" := by
    intro s
    constructor
    · intro h
      have := congrArg (fun x : String => x.toList.head?) h
      simp only [String.toList_append] at this
      exact absurd (show some 'p' = some 'k' from this) (by decide)
    · intro h
      have := congrArg (fun x : String => x.toList.head?) h
      simp only [String.toList_append] at this
      exact absurd (show some 'p' = some 'm' from this) (by decide)
  unfold cols at hc
  simp only [List.mem_cons, List.not_mem_nil, or_false] at hc
  rcases hc with rfl | rfl
  · dsimp only; rw [String.append_assoc]; exact key _
  · dsimp only; rw [String.append_assoc]; exact key _

/-- C137: two runs that differ only in the multipoles asked for have the same `alpha`, norms, shot noise and edges, and the same values in every column that
both tables have. -/
theorem poles_apart (w : World n K) (leg : List ℚ → Nat → Fin n → Fin n → K) (hl : Legendre w leg) (mc : Machine n) (h : ConvObj.Heap) (g : ConvObj.Args)
    (p : ConvObj.Poles) (h1 h2 : ConvObj.Heap) (o o' : ConvObj.Obj) (hk : call w mc h g = (h1, .ok o)) (hk' : call w mc h { g with poles := p } = (h2, .ok o'))
    (i j : Nat) (n1 n2 : ConvObj.Mesh) (hi : h[i]? = some n1) (hj : h[j]? = some n2) (hf : g.first = .mesh i)
    (hs : g.second = some (.mesh j) ∨ (g.second = none ∧ j = i)) (a : ℚ) (ha : o.attrs.alpha = some a) :
    o'.attrs.alpha = o.attrs.alpha ∧ o'.attrs.dataNorm = o.attrs.dataNorm ∧ o'.attrs.randomsNorm = o.attrs.randomsNorm ∧
    o'.attrs.shotnoise = o.attrs.shotnoise ∧ o'.edges = o.edges ∧ ∀ c ∈ o.poles.data, ∀ c' ∈ o'.poles.data, c.name = c'.name → c = c' := by
  obtain ⟨p1, p2⟩ := call_meshes w mc h g h1 o hk i j n1 n2 hi hj hf hs
  obtain ⟨p1', p2'⟩ := call_meshes w mc h { g with poles := p } h2 o' hk' i j n1 n2 hi hj hf hs
  obtain ⟨r1, r2, m1, m2, norm, ed, a1, a2, a3, a4, a5, a6, a7, a8, a9, ⟨cs, a10⟩, a11, a12, a13, a14⟩ := call_direct w mc leg hl h g h1 o hk
  obtain ⟨s1, s2, M1, M2, norm', ed', b1, b2, b3, b4, b5, b6, b7, b8, b9, ⟨cs', b10⟩, b11, b12, b13, b14⟩ :=
    call_direct w mc leg hl h { g with poles := p } h2 o' hk'
  have e1 : r1 = i := a3 i hf
  have e2 : s1 = i := b3 i hf
  have e3 : r2 = j := by
    rcases hs with hs | ⟨hs, hj⟩
    · exact a4 j hs
    · rw [a5 hs, e1, hj]
  have e4 : s2 = j := by
    rcases hs with hs | ⟨hs, hj⟩
    · exact b4 j hs
    · rw [b5 hs, e2, hj]
  subst e1
  rw [e2] at b1
  rw [e3] at a2
  rw [e4] at b2
  rw [p1] at a1; rw [p2] at a2; rw [p1'] at b1; rw [p2'] at b2
  cases a1; cases a2; cases b1; cases b2
  generalize hm1 : final n1 n2 n1 = m1 at *
  generalize hm2 : final n1 n2 n2 = m2 at *
  have hb : (Except.ok (ed', cs') : Except ConvObj.Err (List ℚ × Option (List ℚ))) = .ok (ed, cs) := b10.symm.trans a10
  cases hb
  have ha1 : Fkp.alpha (meshOf mc m1).cat = some a := by rw [← a12]; exact ha
  have ha2 : Fkp.alpha (meshOf mc m2).cat = some a := by
    have hv : ConvObj.validCross m1 m2 = true := by
      apply (ConvObj.valid_iff m1 m2).mpr
      refine ⟨a7, a8, a9, ?_⟩
      obtain ⟨t1, t2, N1, N2, _, _, _, u1, u2, u3, u4, u5, _, _, _, _, _, _, _, u13, _⟩ := ConvObj.result_spec _ (consistent w mc) _ _ _ _ hk
      have v1 : t1 = r1 := u3 r1 (by dsimp only; rw [hf]; rfl)
      have v2 : t2 = j := by
        rcases hs with hs | ⟨hs, hj⟩
        · exact u4 j (by dsimp only; rw [hs]; rfl)
        · rw [u5 (by dsimp only; rw [hs]; rfl), v1, hj]
      rw [v1, p1] at u1
      rw [v2, p2] at u2
      cases u1
      cases u2
      exact u13
    have := (same_alpha mc m1 m2 hv []).1
    show (metaOf mc m2 []).alpha = some a
    rw [← this]; exact ha1
  obtain ⟨c1, c2, c3⟩ := a14 a a (.inl ha1) (.inl ha2)
  obtain ⟨d1, d2, d3⟩ := b14 a a (.inl ha1) (.inl ha2)
  have hal : o'.attrs.alpha = o.attrs.alpha := by rw [a12, b12]
  have hdn : o'.attrs.dataNorm = o.attrs.dataNorm := by rw [c1, d1]
  have hrn : o'.attrs.randomsNorm = o.attrs.randomsNorm := by rw [c2, d2]
  rw [hdn, hrn, a13] at b13
  cases b13
  refine ⟨hal, hdn, hrn, by rw [a11, b11, hal, hrn], by rw [a6, b6], ?_⟩
  intro c hc c' hc' hn
  rw [c3] at hc
  rw [d3] at hc'
  simp only [List.mem_append, List.mem_singleton, List.mem_flatMap] at hc hc'
  rcases hc with (rfl | ⟨e, -, hc⟩) | rfl <;> rcases hc' with (rfl | ⟨e', -, hc'⟩) | rfl
  · rfl
  · exact absurd hn.symm (cols_name _ _ _ hc').1
  · dsimp only at hn; exact absurd hn (by decide)
  · exact absurd hn (cols_name _ _ _ hc).1
  · exact cols_same e e' (fun ell => averages w mc m1 ed (powerAt w mc leg m1 m2 a a norm ell)) c c' hc hc' hn
  · exact absurd hn (cols_name _ _ _ hc).2
  · dsimp only at hn; exact absurd hn (by decide)
  · exact absurd hn.symm (cols_name _ _ _ hc').2
  · rfl

/-- C137: the hypotheses of `poles_apart` hold: the monopole, and the monopole after a dipole. -/
theorem poles_case : (call world machA [meshA] gM).2.toOption.map (fun o => (o.attrs.alpha, o.poles.data.map fun c => (c.name, c.vals))) =
      some (some (1 / 2), [("k", [.fin 0, .fin 1]), ("power_0.real", [.fin 0, .fin 16]), ("power_0.imag", [.fin 0, .fin 0]), ("modes", [.fin 1, .fin 1])]) ∧
    (call world machA [meshA] { gM with poles := .many [1, 0] }).2.toOption.map (fun o => (o.attrs.alpha, o.poles.data.map fun c => (c.name, c.vals))) =
      some (some (1 / 2), [("k", [.fin 0, .fin 1]), ("power_0.real", [.fin 0, .fin 16]), ("power_0.imag", [.fin 0, .fin 0]),
        ("power_1.real", [.fin 0, .fin 48]), ("power_1.imag", [.fin 0, .fin 0]), ("modes", [.fin 1, .fin 1])]) := by
  decide +kernel

end NBK.Survey
