import Verif.CgmObj.SymProps
import Verif.CgmObj.CaseProps
import Mathlib.Logic.Equiv.Basic
import Mathlib.Tactic.FinCases

/-! Concrete cases of C146: three objects, moved, rotated, in other units and in another order. -/
set_option linter.unusedSimpArgs false
namespace NBK.CgmObj
open NBK

/-- Three objects at the given positions, with masses 7, 3 and 5, in a cube. -/
def trio (p q r : Vec) (box : Option ℚ) : Source where
  ranks := [[⟨p, fun _ => ⟨false, 7⟩⟩, ⟨q, fun _ => ⟨false, 3⟩⟩, ⟨r, fun _ => ⟨false, 5⟩⟩]]
  hard := ["Position", "Mass"]
  over := []
  dtype _ := .f8
  box := box.map .num

/-- Ranked by mass, with the line of sight `los`. -/
def trioCall (p q r : Vec) (box : Option ℚ) (rperp rpar : ℚ) (los : Option (ℚ × ℚ × ℚ)) : Call :=
  ⟨oneEnv, trio p q r box, { rankby := .name "Mass", rperp := rperp, rpar := rpar, los := los.map fun n => .vec [n.1, n.2.1, n.2.2], periodic := box.isSome }⟩

def trioAttrs (box : Option ℚ) (rperp rpar : ℚ) (los : Option (ℚ × ℚ × ℚ)) : Attrs :=
  ⟨["Mass"], rperp, rpar, los.map fun n => ![n.1, n.2.1, n.2.2], box.isSome, box.map fun L _ => L⟩

theorem trio_fits (p q r : Vec) (box : Option ℚ) (rperp rpar : ℚ) (los : Option (ℚ × ℚ × ℚ)) (hn : ∀ n, los = some n → n.1 * n.1 + n.2.1 * n.2.1 + n.2.2 * n.2.2 = 1)
    (hb : ∀ L, box = some L → ∀ i, (0 ≤ p i ∧ p i < L) ∧ (0 ≤ q i ∧ q i < L) ∧ 0 ≤ r i ∧ r i < L)
    (h0 : los = none → dot p p ≠ 0 ∧ dot q q ≠ 0 ∧ dot r r ≠ 0) : (trioCall p q r box rperp rpar los).Fits (trioAttrs box rperp rpar los) := by
  have mem : ∀ x ∈ (trio p q r box).all, x = ⟨p, fun _ => ⟨false, 7⟩⟩ ∨ x = ⟨q, fun _ => ⟨false, 3⟩⟩ ∨ x = ⟨r, fun _ => ⟨false, 5⟩⟩ := by
    intro x hx
    simpa [trio, Source.all] using hx
  refine ⟨⟨rfl, rfl, rfl, rfl, ?_, ?_, ?_⟩, one_world _ _, by simp [trioCall, trio, Source.columns], by simp [trioAttrs], ?_, ?_, by simp [trioCall, trio], by simp [trioCall, trio], ?_, ?_,
    by simp [trioCall, trio]⟩
  · cases box <;> rfl
  · cases los with
    | none => rfl
    | some n =>
      show checkLos (some (.vec [n.1, n.2.1, n.2.2])) = _
      unfold checkLos
      dsimp only
      rw [if_pos]
      · rfl
      · show |n.1 * n.1 + n.2.1 * n.2.1 + n.2.2 * n.2.2 - 1| ≤ _
        rw [hn n rfl]
        norm_num
  · intro h
    cases box with
    | none => cases h
    | some L => simp [trioCall, trio]
  · intro k hk
    have : k = "Mass" := by simpa [trioAttrs] using hk
    subst this
    exact ⟨by simp [trioCall, trio, Source.columns], by simp [trioCall, trio], by decide⟩
  · intro k _ _ x hx
    rcases mem x hx with rfl | rfl | rfl <;> rfl
  · intro L hL i x hx
    cases box with
    | none => cases hL
    | some b =>
      obtain rfl : (fun _ => b) = L := Option.some.inj hL
      obtain ⟨h1, h2, h3⟩ := hb b rfl i
      rcases mem x hx with rfl | rfl | rfl
      · exact h1
      · exact h2
      · exact h3
  · intro h x hx
    cases los with
    | some n => cases h
    | none =>
      obtain ⟨h1, h2, h3⟩ := h0 rfl
      rcases mem x hx with rfl | rfl | rfl
      · exact h1
      · exact h2
      · exact h3

theorem trio_ranked (π : Nat ≃ Nat) (p q r : Vec) (box : Option ℚ) (rperp rpar : ℚ) (los : Option (ℚ × ℚ × ℚ)) :
    Ranked π (trioCall p q r box rperp rpar los) ["Mass"] := by
  left
  intro i j x y hx hy h1 h2
  have hi : i < 3 := (List.getElem?_eq_some_iff.mp hx).1
  have hj : j < 3 := (List.getElem?_eq_some_iff.mp hy).1
  match i, j, hi, hj with
  | 0, 0, _, _ | 1, 1, _, _ | 2, 2, _, _ => rfl
  | 0, 1, _, _ | 0, 2, _, _ | 1, 0, _, _ | 1, 2, _, _ | 2, 0, _, _ | 2, 1, _, _ =>
    cases hx
    cases hy
    simp [Sort.lexLE, Sort.Num.val] at h1 h2

theorem trio_moved (f : Vec → Vec) (p q r : Vec) (box box' : Option ℚ) (rperp rpar rperp' rpar' : ℚ) (los los' : Option (ℚ × ℚ × ℚ)) :
    Moved (Equiv.refl Nat) f (trioCall p q r box rperp rpar los) (trioCall (f p) (f q) (f r) box' rperp' rpar' los') := by
  intro k
  match k with
  | 0 | 1 | 2 | k + 3 => rfl

def pA : Vec := ![1 / 2, 5, 5]
def pB : Vec := ![19 / 2, 5, 6]
def pC : Vec := ![5, 5, 5]

theorem inside (f : Vec → Vec) (hf : ∀ i, (0 ≤ f pA i ∧ f pA i < 10) ∧ (0 ≤ f pB i ∧ f pB i < 10) ∧ 0 ≤ f pC i ∧ f pC i < 10) :
    (trioCall (f pA) (f pB) (f pC) (some 10) 2 (3 / 2) (some (0, 0, 1))).Fits (trioAttrs (some 10) 2 (3 / 2) (some (0, 0, 1))) :=
  trio_fits _ _ _ _ _ _ _ (by intro n hn; cases hn; norm_num) (by intro L hL; cases hL; exact hf) (by intro h; cases h)

theorem base : (trioCall pA pB pC (some 10) 2 (3 / 2) (some (0, 0, 1))).Fits (trioAttrs (some 10) 2 (3 / 2) (some (0, 0, 1))) :=
  inside id (by intro i; fin_cases i <;> norm_num [pA, pB, pC])

/-- A translation along the second axis. -/
example : SameRows (Equiv.refl Nat) (trioCall pA pB pC (some 10) 2 (3 / 2) (some (0, 0, 1)))
    (trioCall (fun i => pA i + ![0, 3, 0] i) (fun i => pB i + ![0, 3, 0] i) (fun i => pC i + ![0, 3, 0] i) (some 10) 2 (3 / 2) (some (0, 0, 1))) :=
  groups_shift ![0, 0, 1] rfl ![0, 3, 0] base (inside (fun x i => x i + ![0, 3, 0] i) (by intro i; fin_cases i <;> norm_num [pA, pB, pC])) (trio_moved _ _ _ _ _ _ _ _ _ _ _ _) (trio_ranked _ _ _ _ _ _ _ _)

/-- Moved by 7 along the first axis, back by 10 beyond the end of the box. -/
def around (x : Vec) (i : Fin 3) : ℚ := x i + ![7, 0, 0] i + (if i = 0 ∧ 3 ≤ x 0 then (-1 : ℤ) else 0 : ℤ) * 10

example : SameRows (Equiv.refl Nat) (trioCall pA pB pC (some 10) 2 (3 / 2) (some (0, 0, 1))) (trioCall (around pA) (around pB) (around pC) (some 10) 2 (3 / 2) (some (0, 0, 1))) :=
  groups_wrapped ![0, 0, 1] rfl (fun _ => 10) rfl ![7, 0, 0] (fun x i => if i = 0 ∧ 3 ≤ x 0 then (-1 : ℤ) else 0) base (inside around (by decide +kernel))
    (trio_moved around _ _ _ _ _ _ _ _ _ _ _) (trio_ranked _ _ _ _ _ _ _ _)

/-- Lengths in units of a thousandth. -/
example : SameRows (Equiv.refl Nat) (trioCall pA pB pC (some 10) 2 (3 / 2) (some (0, 0, 1)))
    (trioCall (fun i => 1000 * pA i) (fun i => 1000 * pB i) (fun i => 1000 * pC i) (some (1000 * 10)) (1000 * 2) (1000 * (3 / 2)) (some (0, 0, 1))) :=
  groups_units (a := trioAttrs (some 10) 2 (3 / 2) (some (0, 0, 1))) (u := 1000) (by norm_num) base
    (trio_fits _ _ _ _ _ _ _ (by intro n hn; cases hn; norm_num) (by intro L hL; cases hL; intro i; fin_cases i <;> norm_num [pA, pB, pC]) (by intro h; cases h))
    (trio_moved _ _ _ _ _ _ _ _ _ _ _ _) (trio_ranked _ _ _ _ _ _ _ _)

/-- A rotation by the angle of the triangle 3, 4, 5. -/
def turn (x : Vec) : Vec := ![3 / 5 * x 0 - 4 / 5 * x 1, 4 / 5 * x 0 + 3 / 5 * x 1, x 2]

theorem turn_rotation : Rotation turn where
  sub x y := by funext i; fin_cases i <;> simp [turn] <;> ring
  add x y := by funext i; fin_cases i <;> simp [turn] <;> ring
  dot x y := by simp [turn, dot]; ring

example : SameRows (Equiv.refl Nat) (trioCall pA pB pC none 2 (3 / 2) none) (trioCall (turn pA) (turn pB) (turn pC) none 2 (3 / 2) none) :=
  groups_rotated turn_rotation (trio_fits _ _ _ _ _ _ _ (by intro n hn; cases hn) (by intro L hL; cases hL) fun _ => ⟨by decide +kernel, by decide +kernel, by decide +kernel⟩)
    (trio_fits _ _ _ _ _ _ _ (by intro n hn; cases hn) (by intro L hL; cases hL) fun _ => by
      rw [turn_rotation.dot, turn_rotation.dot, turn_rotation.dot]
      exact ⟨by decide +kernel, by decide +kernel, by decide +kernel⟩) rfl (trio_moved _ _ _ _ _ _ _ _ _ _ _ _) (trio_ranked _ _ _ _ _ _ _ _)

/-- A line of sight along the first axis becomes one along (3/5, 4/5, 0). -/
example : SameRows (Equiv.refl Nat) (trioCall pA pB pC none 2 (3 / 2) (some (1, 0, 0))) (trioCall (turn pA) (turn pB) (turn pC) none 2 (3 / 2) (some (3 / 5, 4 / 5, 0))) := by
  have e : { trioAttrs none 2 (3 / 2) (some (1, 0, 0)) with los := (trioAttrs none 2 (3 / 2) (some (1, 0, 0))).los.map turn } = trioAttrs none 2 (3 / 2) (some (3 / 5, 4 / 5, 0)) := by
    simp only [trioAttrs, Option.map_some, Attrs.mk.injEq, true_and, and_true, Option.some.injEq]
    funext i
    fin_cases i <;> simp [turn]
  refine groups_rotated (a := trioAttrs none 2 (3 / 2) (some (1, 0, 0))) turn_rotation (trio_fits _ _ _ _ _ _ _ (by intro n hn; cases hn; norm_num) (by intro L hL; cases hL) (by intro h; cases h)) ?_ rfl
    (trio_moved _ _ _ _ _ _ _ _ _ _ _ _) (trio_ranked _ _ _ _ _ _ _ _)
  rw [e]
  exact trio_fits _ _ _ _ _ _ _ (by intro n hn; cases hn; norm_num) (by intro L hL; cases hL) (by intro h; cases h)

/-- The first two objects exchanged. -/
def swapped : Call :=
  ⟨oneEnv, { trio pA pB pC (some 10) with ranks := [[⟨pB, fun _ => ⟨false, 3⟩⟩], [⟨pA, fun _ => ⟨false, 7⟩⟩, ⟨pC, fun _ => ⟨false, 5⟩⟩]] },
    (trioCall pA pB pC (some 10) 2 (3 / 2) (some (0, 0, 1))).g⟩

theorem swapped_moved : Moved (Equiv.swap 0 1) id (trioCall pA pB pC (some 10) 2 (3 / 2) (some (0, 0, 1))) swapped := by
  intro k
  match k with
  | 0 => rfl
  | 1 => rfl
  | 2 => rfl
  | k + 3 =>
    rw [Equiv.swap_apply_of_ne_of_ne (by omega) (by omega)]
    rfl

theorem swapped_fits : swapped.Fits (trioAttrs (some 10) 2 (3 / 2) (some (0, 0, 1))) := by
  have b := base
  have mem : ∀ x ∈ swapped.s.all, x ∈ (trio pA pB pC (some 10)).all := by
    intro x hx
    simp [swapped, trio, Source.all] at hx ⊢
    tauto
  exact ⟨b.accepted, one_world _ _, b.pos, b.nodup, b.keys, fun k hk hd x hx => b.signs k hk hd x (mem x hx), by simp [swapped], by simp [swapped],
    fun L hL i x hx => b.box L hL i x (mem x hx), (fun h => by cases h), b.hard⟩

/-- On two ranks and in another order. -/
example : SameRows (Equiv.swap 0 1) (trioCall pA pB pC (some 10) 2 (3 / 2) (some (0, 0, 1))) swapped := groups_layout base swapped_fits swapped_moved (trio_ranked _ _ _ _ _ _ _ _)

/-- **C146** Without a fixed line of sight the origin matters: a pair within a cylinder is not within it after a translation. -/
theorem origin_matters : InCylinder none none 1 3 ![10, 0, 0] ![12, 0, 0] ∧
    ¬ InCylinder none none 1 3 (![10, 0, 0] + ![-11, 10, 0]) (![12, 0, 0] + ![-11, 10, 0]) := by
  constructor
  · refine ⟨![10, 0, 0] - ![12, 0, 0], fun i => ⟨fun _ => rfl, fun L hL => by cases hL⟩, fun n hn => (by cases hn), fun _ => ?_⟩
    decide +kernel
  · rintro ⟨x, hx, -, h⟩
    have e : x = ![-2, 0, 0] := by
      funext i
      rw [(hx i).1 rfl]
      fin_cases i <;> norm_num
    subst e
    obtain ⟨_, _, h3⟩ := h rfl
    revert h3
    decide +kernel

end NBK.CgmObj
