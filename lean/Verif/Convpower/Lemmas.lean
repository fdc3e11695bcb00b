import Verif.Convpower.Model
import Mathlib.Tactic.Ring
import Mathlib.Algebra.BigOperators.Group.List.Basic
import Mathlib.Algebra.BigOperators.Ring.Finset
import Mathlib.Algebra.BigOperators.Fin

/-! # Lemmas about the heap of `_compute_multipoles` -/
set_option linter.unusedSimpArgs false

namespace NBK.Convpower

/-- A loop over cells, each set from values of the same cell, is an assignment of the whole array, also if the array is
among those that are read. -/
theorem slabLoop_eq {n : Nat} {K : Type} (h : Heap n K) (r : Ref) (g : Heap n K → Fin n → K)
    (hg : ∀ h h' : Heap n K, ∀ i, (∀ r, h r i = h' r i) → g h i = g h' i) :
    slabLoop h r g = assign h r fun i => g h i := by
  have key : ∀ (l : List (Fin n)), l.Nodup → ∀ h : Heap n K,
      l.foldl (fun h i => fun r' j => if r' = r ∧ j = i then g h i else h r' j) h =
        fun r' j => if r' = r ∧ j ∈ l then g h j else h r' j := by
    intro l
    induction l with
    | nil => intro _ h; simp
    | cons i l ih =>
      intro hn h
      rw [List.nodup_cons] at hn
      rw [List.foldl_cons, ih hn.2]
      funext r' j
      by_cases hr : r' = r
      · by_cases hj : j ∈ l
        · have hji : j ≠ i := fun e => hn.1 (e ▸ hj)
          simp only [hr, hj, true_and, if_true, List.mem_cons, or_true]
          apply hg
          intro r''
          simp [hji]
        · by_cases hji : j = i
          · subst hji; simp [hr, hj]
          · simp [hr, hj, hji]
      · simp [hr]
  unfold slabLoop
  rw [key _ (List.nodup_finRange n)]
  funext r' j
  unfold assign
  by_cases hr : r' = r <;> simp [hr]

variable {n : Nat} {K β γ δ : Type} [CommRing K]

@[simp] theorem assign_same {K : Type} (h : Heap n K) (r : Ref) (v : Fin n → K) : assign h r v r = v := by simp [assign]

theorem assign_ne {K : Type} (h : Heap n K) {r r' : Ref} (v : Fin n → K) (hr : r' ≠ r) : assign h r v r' = h r' := by
  simp [assign, hr]

/-- The factor of a compensation, 1 if there is none. -/
def factor (c : Option (Fin n → K)) (i : Fin n) : K := c.elim 1 fun w => w i

theorem compensate_same (h : Heap n K) (r : Ref) (c : Option (Fin n → K)) :
    compensate h r c r = fun i => h r i * factor c i := by
  cases c with
  | none => funext i; simp [compensate, factor]
  | some w => simp [compensate, factor]

theorem compensate_ne (h : Heap n K) {r r' : Ref} (c : Option (Fin n → K)) (hr : r' ≠ r) : compensate h r c r' = h r' := by
  cases c with
  | none => rfl
  | some w => simp [compensate, assign_ne _ _ hr]

/-- The term of one spherical harmonic. -/
def ylmTerm (e : Env n K β γ δ) (F : Fin n → K) (y : (Fin n → K) × (Fin n → K)) (k : Fin n) : K :=
  e.r2c (fun x => F x * y.1 x) k * y.2 k

theorem ylmStep_spec (e : Env n K β γ δ) (ref2 : Ref) (href : ref2 = .rfield1 ∨ ref2 = .rfield2) (h : Heap n K)
    (y : (Fin n → K) × (Fin n → K)) :
    (ylmStep e ref2 h y .Aell = fun k => h .Aell k + ylmTerm e (h .density2) y k) ∧
    ylmStep e ref2 h y .A01 = h .A01 ∧ ylmStep e ref2 h y .A02 = h .A02 ∧ ylmStep e ref2 h y .density2 = h .density2 := by
  unfold ylmStep
  rw [slabLoop_eq _ ref2 _ (fun h h' i hh => by rw [hh]), slabLoop_eq _ .cfield _ (fun h h' i hh => by rw [hh])]
  have n1 : Ref.Aell ≠ ref2 := by rcases href with rfl | rfl <;> decide
  have n2 : Ref.A01 ≠ ref2 := by rcases href with rfl | rfl <;> decide
  have n3 : Ref.A02 ≠ ref2 := by rcases href with rfl | rfl <;> decide
  have n4 : Ref.density2 ≠ ref2 := by rcases href with rfl | rfl <;> decide
  refine ⟨?_, ?_, ?_, ?_⟩
  · funext k
    rw [assign_same]
    simp only [assign_same, assign_ne _ _ n1, assign_ne _ _ (show Ref.Aell ≠ .cfield by decide), ylmTerm]
  · simp only [assign_ne _ _ n2, assign_ne _ _ (show Ref.A01 ≠ .cfield by decide), assign_ne _ _ (show Ref.A01 ≠ .Aell by decide)]
  · simp only [assign_ne _ _ n3, assign_ne _ _ (show Ref.A02 ≠ .cfield by decide), assign_ne _ _ (show Ref.A02 ≠ .Aell by decide)]
  · simp only [assign_ne _ _ n4, assign_ne _ _ (show Ref.density2 ≠ .cfield by decide), assign_ne _ _ (show Ref.density2 ≠ .Aell by decide)]

theorem ylmFold_spec (e : Env n K β γ δ) (ref2 : Ref) (href : ref2 = .rfield1 ∨ ref2 = .rfield2)
    (ys : List ((Fin n → K) × (Fin n → K))) (h : Heap n K) :
    (ys.foldl (ylmStep e ref2) h .Aell = fun k => h .Aell k + (ys.map fun y => ylmTerm e (h .density2) y k).sum) ∧
    ys.foldl (ylmStep e ref2) h .A01 = h .A01 ∧ ys.foldl (ylmStep e ref2) h .A02 = h .A02 ∧
    ys.foldl (ylmStep e ref2) h .density2 = h .density2 := by
  induction ys generalizing h with
  | nil => simp
  | cons y ys ih =>
    obtain ⟨a, b, c, d⟩ := ylmStep_spec e ref2 href h y
    obtain ⟨a', b', c', d'⟩ := ih (ylmStep e ref2 h y)
    refine ⟨?_, b'.trans b, c'.trans c, d'.trans d⟩
    rw [List.foldl_cons, a', a, d]
    funext k
    rw [List.map_cons, List.sum_cons, add_assoc]

/-- The amplitude of a multipole `ell > 0`. -/
def amp (e : Env n K β γ δ) (F : Fin n → K) (ell : Nat) (k : Fin n) : K :=
  ((e.ylms ell).map fun y => ylmTerm e F y k).sum * factor e.comp2 k * (e.fourPi * e.volume)

theorem ellStep_spec (e : Env n K β γ δ) (ref2 : Ref) (href : ref2 = .rfield1 ∨ ref2 = .rfield2) (h : Heap n K) (ell : Nat) :
    (ellStep e ref2 h ell .Aell = fun k => e.norm * h .A01 k * e.conj (amp e (h .density2) ell k)) ∧
    ellStep e ref2 h ell .A01 = h .A01 ∧ ellStep e ref2 h ell .A02 = h .A02 ∧
    ellStep e ref2 h ell .density2 = h .density2 := by
  unfold ellStep
  rw [slabLoop_eq _ .Aell _ (fun h h' i hh => by rw [hh, hh])]
  obtain ⟨a, b, c, d⟩ := ylmFold_spec e ref2 href (e.ylms ell) (assign h .Aell fun _ => 0)
  rw [assign_ne _ _ (show Ref.A01 ≠ .Aell by decide)] at b
  rw [assign_ne _ _ (show Ref.A02 ≠ .Aell by decide)] at c
  rw [assign_ne _ _ (show Ref.density2 ≠ .Aell by decide)] at d a
  refine ⟨?_, ?_, ?_, ?_⟩
  · funext k
    simp only [assign_same, assign_ne _ _ (show Ref.A01 ≠ .Aell by decide),
      compensate_ne _ _ (show Ref.A01 ≠ .Aell by decide), compensate_same, a, b, amp, zero_add]
  · simp only [assign_ne _ _ (show Ref.A01 ≠ .Aell by decide), compensate_ne _ _ (show Ref.A01 ≠ .Aell by decide), b]
  · simp only [assign_ne _ _ (show Ref.A02 ≠ .Aell by decide), compensate_ne _ _ (show Ref.A02 ≠ .Aell by decide), c]
  · simp only [assign_ne _ _ (show Ref.density2 ≠ .Aell by decide), compensate_ne _ _ (show Ref.density2 ≠ .Aell by decide), d]

/-- The columns after several were written. -/
def setAll (f : Nat → δ) (l : List Nat) (p : List (Nat × Option δ)) : List (Nat × Option δ) :=
  p.map fun q => if q.1 ∈ l then (q.1, some (f q.1)) else q

theorem setAll_cons (f : Nat → δ) (ell : Nat) (l : List Nat) (p : List (Nat × Option δ)) :
    setAll f l (setPower p ell (f ell)) = setAll f (ell :: l) p := by
  unfold setAll setPower
  rw [List.map_map]
  apply List.map_congr_left
  intro q _
  simp only [Function.comp_def, List.mem_cons]
  by_cases h1 : q.1 = ell
  · by_cases h2 : ell ∈ l <;> simp [h1, h2]
  · simp [h1]

theorem ellLoop_spec (e : Env n K β γ δ) (ref2 : Ref) (href : ref2 = .rfield1 ∨ ref2 = .rfield2) (l : List Nat) (h : Heap n K)
    (p : List (Nat × Option δ)) (b : Bool) :
    (ellLoop e ref2 l (h, p, b)).1 .A01 = h .A01 ∧ (ellLoop e ref2 l (h, p, b)).1 .A02 = h .A02 ∧
    (ellLoop e ref2 l (h, p, b)).2.1 =
      setAll (fun ell => e.projP fun k => e.norm * h .A01 k * e.conj (amp e (h .density2) ell k)) l p ∧
    (ellLoop e ref2 l (h, p, b)).2.2 = (b || !l.isEmpty) := by
  induction l generalizing h p b with
  | nil => simp [ellLoop, setAll]
  | cons ell l ih =>
    obtain ⟨a1, a2, a3, a4⟩ := ellStep_spec e ref2 href h ell
    obtain ⟨b1, b2, b3, b4⟩ := ih (ellStep e ref2 h ell) (setPower p ell (e.projP (ellStep e ref2 h ell .Aell))) true
    refine ⟨b1.trans a2, b2.trans a3, ?_, ?_⟩
    · show (ellLoop e ref2 l _).2.1 = _
      rw [b3, a1, a2, a4]
      exact setAll_cons (fun ell => e.projP fun k => e.norm * h .A01 k * e.conj (amp e (h .density2) ell k)) ell l p
    · show (ellLoop e ref2 l _).2.2 = _
      rw [b4]; simp

theorem prepare_spec (e : Env n K β γ δ) (auto zero : Bool) (h : Heap n K) (hf : auto = true → e.field2 = e.field1) :
    (prepare e auto zero h .A01 = fun k => e.r2c e.field1 k * factor e.comp1 k * e.volume) ∧
    (auto = false → zero = true →
      prepare e auto zero h .A02 = fun k => e.r2c e.field2 k * e.volume * factor e.comp2 k) ∧
    prepare e auto zero h .density2 = e.field2 := by
  cases auto <;> cases zero <;>
    simp [prepare, assign_same, assign_ne, compensate_same, compensate_ne, hf]

end NBK.Convpower
