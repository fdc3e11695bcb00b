import Verif.Capture.RunProps

/-!
# Output outside of blocks, the text of a message, and what `_run` raises (C138)
-/
set_option linter.unusedSimpArgs false
namespace NBK.Capture

/-- The bytes that C functions print to a stream. -/
def putsOf (n : Name) (es : List Ev) : List Byte := es.filterMap fun
  | .put k b => if k = n then some b else none
  | _ => none

/-- C138: outside of blocks every byte that C functions print is in the file of its descriptor, or still in the buffer, in the order in which it was printed. -/
theorem outside (m : Mach) (n k : Name) (hnk : n ≠ k) (i j : Nat) (hij : i ≠ j) (es : List Ev) (hes : Ev.enter ∉ es) (s s' : St) (hf : s.frames = [])
    (hn : s.fds n.fd = some (.file i)) (hk : s.fds k.fd = some (.file j)) (h : run m s es = some s') :
    s'.frames = [] ∧ s'.fds = s.fds ∧ s'.files i ++ s'.buf n = s.files i ++ s.buf n ++ putsOf n es := by
  induction es generalizing s with
  | nil =>
    simp only [run, Option.some.injEq] at h
    subst h
    exact ⟨hf, rfl, by simp [putsOf]⟩
  | cons e es ih =>
    simp only [run, Option.bind_eq_some_iff] at h
    obtain ⟨s1, h1, h2⟩ := h
    have hes' : Ev.enter ∉ es := fun hx => hes (List.mem_cons_of_mem _ hx)
    have hcons : putsOf n (e :: es) = putsOf n [e] ++ putsOf n es := by
      unfold putsOf
      rw [← List.filterMap_append]
      rfl
    have key : s1.frames = [] ∧ s1.fds = s.fds ∧ s1.files i ++ s1.buf n = s.files i ++ s.buf n ++ putsOf n [e] := by
      cases e with
      | enter => exact absurd List.mem_cons_self hes
      | py a t =>
        simp only [step] at h1
        by_cases hc : (s.call.isSome || s.waiting) = true
        · rw [if_pos hc] at h1; cases h1
        · rw [if_neg hc] at h1
          injection h1 with h1
          subst h1
          exact ⟨hf, rfl, by simp [putsOf]⟩
      | call g l =>
        simp only [step] at h1
        by_cases hc : (s.call.isSome || s.waiting) = true
        · rw [if_pos hc] at h1; cases h1
        · rw [if_neg hc] at h1
          injection h1 with h1
          subst h1
          exact ⟨hf, rfl, by simp [putsOf]⟩
      | put a b =>
        simp only [step] at h1
        cases hc : s.call with
        | none => rw [hc] at h1; cases h1
        | some p =>
          obtain ⟨g, l⟩ := p
          rw [hc] at h1
          cases l with
          | nil => cases h1
          | cons x l =>
            dsimp only at h1
            by_cases hx : x = (a, b) ∧ (s.buf a).length < m.bcap
            · rw [if_pos hx] at h1
              injection h1 with h1
              subst h1
              refine ⟨hf, rfl, ?_⟩
              by_cases ha : a = n
              · subst ha
                simp [putsOf]
              · have : n ≠ a := fun e => ha e.symm
                simp [putsOf, ha, Function.update_of_ne this]
            · rw [if_neg hx] at h1; cases h1
      | drain a =>
        simp only [step] at h1
        cases hb : s.buf a with
        | nil => rw [hb] at h1; cases h1
        | cons b rest =>
          rw [hb] at h1
          dsimp only at h1
          unfold drainTo at h1
          by_cases ha : a = n
          · subst ha
            rw [hn] at h1
            injection h1 with h1
            subst h1
            refine ⟨hf, rfl, ?_⟩
            simp [putsOf, hb]
          · have hak : a = k := by
              cases a <;> cases n <;> cases k <;> simp_all
            subst hak
            rw [hk] at h1
            injection h1 with h1
            subst h1
            refine ⟨hf, rfl, ?_⟩
            simp [putsOf, Function.update_of_ne hij, Function.update_of_ne hnk]
      | ret =>
        simp only [step] at h1
        cases hc : s.call with
        | none => rw [hc] at h1; cases h1
        | some p =>
          obtain ⟨g, l⟩ := p
          rw [hc] at h1
          cases l with
          | nil =>
            injection h1 with h1
            subst h1
            exact ⟨hf, rfl, by simp [putsOf]⟩
          | cons x l => cases h1
      | finish =>
        simp only [step, hf] at h1
        split at h1 <;> cases h1
      | leave =>
        simp only [step, hf] at h1
        cases h1
      | thread a =>
        simp only [step, hf, List.getElem?_nil] at h1
        split at h1 <;> cases h1
    obtain ⟨k1, k2, k3⟩ := key
    obtain ⟨g1, g2, g3⟩ := ih hes' s1 k1 (by rw [k2]; exact hn) (by rw [k2]; exact hk) h2
    exact ⟨g1, g2.trans k2, by rw [g3, k3, hcons, List.append_assoc]⟩

/-- C138: what Python prints stands in the message as it is, where it was printed. -/
theorem text_python (dec : List Byte → List Char) (l1 l2 : List Piece) (t : List Char) : text dec (l1 ++ .py t :: l2) = text dec l1 ++ t ++ text dec l2 := by
  unfold text
  rw [List.flatMap_append, List.flatMap_cons]
  simp

/-- C138: `_run` raises RuntimeError exactly if an `Exception` was raised in the block; it returns exactly if the function did, and hides nothing else. -/
theorem result_kinds (dec : List Byte → List Char) (entered : Bool) (e : End) (out err : List Piece) :
    (∀ m o r, result dec entered e out err = .runtime m o r ↔ entered = true ∧ e = .exc m ∧ text dec out = o ∧ text dec err = r) ∧
      (result dec entered e out err = .ok ↔ entered = true ∧ e = .ok) ∧ (result dec entered e out err = .other ↔ entered = true ∧ e = .other) ∧
      (result dec entered e out err = .unbound ↔ entered = false) := by
  unfold result
  cases entered <;> cases e <;> simp

example : (run ⟨16, 4, 4⟩ start [.call false [(.out, 65), (.err, 66), (.out, 67)], .put .out 65, .put .err 66, .drain .out, .put .out 67, .ret]).map (fun s => (s.files 1, s.buf .out, s.buf .err)) =
    some ([65], [67], [66]) ∧ start.fds Name.out.fd = some (.file 1) ∧ start.frames = [] := by
  refine ⟨by decide +kernel, by decide, rfl⟩

end NBK.Capture
