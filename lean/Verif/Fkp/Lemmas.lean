import Verif.Fkp.Model
import Verif.Bounds.Props
import Mathlib.Tactic.Linarith
import Mathlib.Tactic.FieldSimp
import Mathlib.Tactic.Ring
import Mathlib.Data.List.Perm.Basic
import Mathlib.Algebra.BigOperators.Group.List.Basic
import Mathlib.Algebra.BigOperators.Ring.List

/-! # Lemmas about FKP catalogs -/
set_option linter.unusedSimpArgs false

namespace NBK.Fkp

/-- The selected rows of all ranks. -/
def Cat.all (c : Cat) : List Row := c.rows.flatten.filter Row.sel

theorem allSum_eq (c : Cat) (g : Row → ℚ) : allSum c g = (c.all.map g).sum := by
  unfold allSum Cat.all Cat.selected
  induction c.rows with
  | nil => simp
  | cons a l ih =>
    simp only [List.map_cons, List.sum_cons, List.flatten_cons, List.filter_append, List.map_append, List.sum_append]
    rw [ih]

theorem selected_flatten (c : Cat) : c.selected.flatten = c.all := by
  unfold Cat.selected Cat.all
  induction c.rows with
  | nil => simp
  | cons a l ih => simp [List.filter_append, ← ih]

theorem allSum_perm {c d : Cat} (h : c.all.Perm d.all) (g : Row → ℚ) : allSum c g = allSum d g := by
  rw [allSum_eq, allSum_eq]; exact (h.map g).sum_eq

theorem selected_coords (c : Cat) (a : Axis) : Bounds.selected (c.coords a) = c.all.map fun r => r.pos a := by
  unfold Bounds.selected Cat.coords Cat.all
  induction c.rows with
  | nil => rfl
  | cons x l ih =>
    simp only [List.map_cons, List.flatten_cons, List.filter_append, List.map_append] at ih ⊢
    rw [ih]
    congr 1
    induction x with
    | nil => rfl
    | cons r x ih' => simp only [List.map_cons, List.filter_cons]; split <;> simp_all

/-- What a successful call for one axis gives. -/
theorem bboxAxis_ok {c : Nat} (hc : 0 < c) {D : List (List (ℚ × Bool))} {size : Option ℚ} {pad L C : ℚ}
    (h : bboxAxis c D size pad = .ok (L, C)) :
    ∃ lo hi, lo ∈ Bounds.selected D ∧ hi ∈ Bounds.selected D ∧ (∀ x ∈ Bounds.selected D, lo ≤ x ∧ x ≤ hi) ∧
      C = (lo + hi) / 2 ∧ L = size.getD (⌈(hi - lo) * (1 + pad)⌉ : ℚ) := by
  unfold bboxAxis at h
  cases hb : Bounds.getDataBounds c D with
  | error e => rw [hb] at h; cases h
  | ok p =>
    obtain ⟨m, M⟩ := p
    rw [hb] at h
    obtain ⟨h1, h2, h3⟩ := Bounds.getDataBounds_extrema c hc D m M hb
    by_cases he : Bounds.selected D = []
    · obtain ⟨rfl, rfl⟩ := h2 he
      cases h
    · obtain ⟨⟨lo, hlo, rfl⟩, hi, hhi, rfl⟩ := h3 he
      have hle : ∀ x ∈ Bounds.selected D, lo ≤ x ∧ x ≤ hi := fun x hx =>
        ⟨WithTop.coe_le_coe.mp (h1 x hx).1, WithBot.coe_le_coe.mp (h1 x hx).2⟩
      have habs : |hi - lo| = hi - lo := abs_of_nonneg (by linarith [(hle lo hlo).2])
      refine ⟨lo, hi, hlo, hhi, hle, ?_, ?_⟩
      · have := congrArg (fun e : Except Err (ℚ × ℚ) => match e with | .ok v => v.2 | _ => 0) h
        simp only [WithTop.some, WithBot.some] at this
        rw [← this]; ring
      · cases size with
        | none =>
          have := congrArg (fun e : Except Err (ℚ × ℚ) => match e with | .ok v => v.1 | _ => 0) h
          simp only [WithTop.some, WithBot.some, habs] at this
          exact this.symm
        | some l =>
          have := congrArg (fun e : Except Err (ℚ × ℚ) => match e with | .ok v => v.1 | _ => 0) h
          exact this.symm

/-- What a successful call for three axes gives. -/
theorem defineBbox_ok {c : Nat} (hc : 0 < c) {f : Fkp} {cat : Cat} {L C : Axis → ℚ}
    (h : defineBbox c f cat = .ok (L, C)) (a : Axis) :
    ∃ lo hi, lo ∈ cat.all ∧ hi ∈ cat.all ∧ (∀ r ∈ cat.all, lo.pos a ≤ r.pos a ∧ r.pos a ≤ hi.pos a) ∧
      C a = (lo.pos a + hi.pos a) / 2 ∧
      L a = (f.boxSize.map (· a)).getD (⌈(hi.pos a - lo.pos a) * (1 + f.boxPad a)⌉ : ℚ) := by
  have key : bboxAxis c (cat.coords a) (f.boxSize.map (· a)) (f.boxPad a) = .ok (L a, C a) := by
    unfold defineBbox at h
    simp only [bind, Except.bind, pure, Except.pure] at h
    cases h0 : bboxAxis c (cat.coords 0) (f.boxSize.map (· 0)) (f.boxPad 0) with
    | error e => rw [h0] at h; cases h
    | ok b0 =>
      cases h1 : bboxAxis c (cat.coords 1) (f.boxSize.map (· 1)) (f.boxPad 1) with
      | error e => rw [h0, h1] at h; cases h
      | ok b1 =>
        cases h2 : bboxAxis c (cat.coords 2) (f.boxSize.map (· 2)) (f.boxPad 2) with
        | error e => rw [h0, h1, h2] at h; cases h
        | ok b2 =>
          rw [h0, h1, h2] at h
          cases h
          match a with
          | 0 => exact h0
          | 1 => exact h1
          | 2 => exact h2
  obtain ⟨lo, hi, hlo, hhi, hall, hC, hL⟩ := bboxAxis_ok hc key
  rw [selected_coords] at hlo hhi hall
  obtain ⟨rl, hrl, rfl⟩ := List.mem_map.mp hlo
  obtain ⟨rh, hrh, rfl⟩ := List.mem_map.mp hhi
  exact ⟨rl, rh, hrl, hrh, fun r hr => hall _ (List.mem_map_of_mem hr), hC, hL⟩

/-- The mesh of a successful `to_mesh`. -/
theorem toMesh_ok {c : Nat} {f : Fkp} {nm : Axis → Nat} {bs bc : Option (Axis → ℚ)} {s : Option Species} {m : Mesh}
    (h : toMesh c f nm bs bc s = .ok m) :
    ∃ L C, defineBbox c f (f.get (boxSpecies f s)) = .ok (L, C) ∧
      m = { cat := f, boxSize := bs.getD L, boxCenter := bc.getD C, pmSize := bs.getD L, nmesh := nm } := by
  unfold toMesh at h
  simp only [bind, Except.bind, pure, Except.pure] at h
  cases hb : defineBbox c f (f.get (boxSpecies f s)) with
  | error e => rw [hb] at h; cases h
  | ok b => rw [hb] at h; cases h; exact ⟨b.1, b.2, rfl, rfl⟩

end NBK.Fkp
