import Verif.RngObj.Model
import Verif.Rng.Lemmas
import Verif.FrontPad.Props

/-! # The loop over chunks with samplers that may raise -/
set_option linter.unusedSimpArgs false
namespace NBK.RngObj
variable {ι β σ : Type}

/-- Chunk number `j` of a list of rows. -/
def chunk (c : Nat) (xs : List ι) (j : Nat) : List ι := (xs.drop (j * c)).take c

/-- One number per row. -/
def Sized (g : σ → List ι → Except Err (List β)) : Prop := ∀ s xs out, g s xs = .ok out → out.length = xs.length

theorem chunk_zero (c : Nat) (xs : List ι) : chunk c xs 0 = xs.take c := by simp [chunk]

theorem chunk_drop (c : Nat) (xs : List ι) (j : Nat) : chunk c (xs.drop c) j = chunk c xs (j + 1) := by
  unfold chunk
  rw [List.drop_drop, Nat.add_mul, Nat.one_mul, Nat.add_comm c]

theorem loop_nil (c : Nat) (seeds : List σ) (g : σ → List ι → Except Err (List β)) (k : Nat) : loop c seeds g k [] = .ok [] := by
  rw [loop]; simp

theorem loop_cons (c : Nat) (hc : 0 < c) (seeds : List σ) (g : σ → List ι → Except Err (List β)) (k : Nat) (xs : List ι) (hx : 0 < xs.length) (s : σ) (hs : seeds[k]? = some s) :
    loop c seeds g k xs = match g s (xs.take c) with
      | .error e => .error e
      | .ok a => match loop c seeds g (k + 1) (xs.drop c) with
        | .error e => .error e
        | .ok rest => .ok (a ++ rest) := by
  have e1 : xs.take (min xs.length c) = xs.take c := by
    rw [Nat.min_comm, ← List.take_take, List.take_length]
  have e2 : xs.drop (min xs.length c) = xs.drop c := by
    rcases Nat.le_total c xs.length with h | h
    · rw [Nat.min_eq_right h]
    · rw [Nat.min_eq_left h, List.drop_length, List.drop_eq_nil_of_le h]
  rw [loop]
  simp only [gt_iff_lt, hx, dite_true, Nat.pos_iff_ne_zero.1 hc, dite_false, hs, e1, e2]
  rfl

/-- If the sampler succeeds on every chunk, the loop gives all numbers. -/
theorem loop_ok (c : Nat) (hc : 0 < c) (seeds : List σ) (s : Nat → σ) (g : σ → List ι → Except Err (List β)) (hg : Sized g) (k : Nat) (xs : List ι)
    (hs : ∀ j, j * c < xs.length → seeds[k + j]? = some (s (k + j)))
    (hok : ∀ j, j * c < xs.length → ∃ out, g (s (k + j)) (chunk c xs j) = .ok out) :
    ∃ tot, loop c seeds g k xs = .ok tot ∧ tot.length = xs.length
      ∧ ∀ i, i < xs.length → ∃ out, g (s (k + i / c)) (chunk c xs (i / c)) = .ok out ∧ tot[i]? = out[i % c]? := by
  induction hn : xs.length using Nat.strongRecOn generalizing xs k with
  | _ n ih =>
    subst hn
    rcases Nat.eq_zero_or_pos xs.length with h0 | h0
    · have : xs = [] := List.eq_nil_of_length_eq_zero h0
      subst this
      exact ⟨[], loop_nil c seeds g k, rfl, fun i hi => absurd hi (by simp)⟩
    · obtain ⟨out, ho⟩ := hok 0 (by omega)
      have hs0 := hs 0 (by omega)
      rw [Nat.add_zero] at ho hs0
      rw [chunk_zero] at ho
      have hdl : (xs.drop c).length < xs.length := by rw [List.length_drop]; omega
      obtain ⟨rest, hr, hl, hv⟩ := ih _ hdl (k + 1) (xs.drop c)
        (fun j hj => by
          rw [List.length_drop] at hj
          have := hs (j + 1) (by rw [Nat.add_mul, Nat.one_mul]; omega)
          rwa [show k + (j + 1) = k + 1 + j by omega] at this)
        (fun j hj => by
          rw [List.length_drop] at hj
          have := hok (j + 1) (by rw [Nat.add_mul, Nat.one_mul]; omega)
          rwa [show k + (j + 1) = k + 1 + j by omega, ← chunk_drop] at this) rfl
      have hlo := hg _ _ _ ho
      rw [List.length_take] at hlo
      rw [List.length_drop] at hl
      refine ⟨out ++ rest, ?_, ?_, fun i hi => ?_⟩
      · rw [loop_cons c hc seeds g k xs h0 _ hs0]
        simp only [ho, hr]
      · rw [List.length_append, hlo, hl]; omega
      · by_cases hic : i < c
        · rw [Nat.div_eq_of_lt hic, Nat.mod_eq_of_lt hic, Nat.add_zero, chunk_zero]
          exact ⟨out, ho, List.getElem?_append_left (by omega)⟩
        · obtain ⟨o2, h2, h3⟩ := hv (i - c) (by rw [List.length_drop]; omega)
          have e1 : i / c = (i - c) / c + 1 := by
            rw [Nat.div_eq_sub_div hc (by omega)]
          have e2 : i % c = (i - c) % c := by rw [Nat.mod_eq_sub_mod (by omega)]
          refine ⟨o2, ?_, ?_⟩
          · rw [e1, show k + ((i - c) / c + 1) = k + 1 + (i - c) / c by omega, ← chunk_drop]; exact h2
          · rw [e2, ← h3, List.getElem?_append_right (by omega), hlo, Nat.min_eq_left (by omega)]

/-- If the sampler raises on a chunk, the loop raises. -/
theorem loop_error (c : Nat) (hc : 0 < c) (seeds : List σ) (s : Nat → σ) (g : σ → List ι → Except Err (List β)) (k : Nat) (xs : List ι)
    (hs : ∀ j, j * c < xs.length → seeds[k + j]? = some (s (k + j))) (j : Nat) (hj : j * c < xs.length) (e : Err) (he : g (s (k + j)) (chunk c xs j) = .error e) :
    ∃ e', loop c seeds g k xs = .error e' := by
  induction j generalizing k xs with
  | zero =>
    have hs0 := hs 0 (by omega)
    rw [Nat.add_zero] at he hs0
    rw [chunk_zero] at he
    exact ⟨e, by rw [loop_cons c hc seeds g k xs (by omega) _ hs0]; simp only [he]⟩
  | succ j ih =>
    have hs0 := hs 0 (by omega)
    rw [Nat.add_zero] at hs0
    obtain ⟨e', h'⟩ := ih (k + 1) (xs.drop c)
      (fun j hj => by
        rw [List.length_drop] at hj
        have := hs (j + 1) (by rw [Nat.add_mul, Nat.one_mul]; omega)
        rwa [show k + (j + 1) = k + 1 + j by omega] at this)
      (by rw [List.length_drop]; rw [Nat.add_mul, Nat.one_mul] at hj; omega)
      (by rw [chunk_drop, show k + 1 + j = k + (j + 1) by omega]; exact he)
    rw [loop_cons c hc seeds g k xs (by omega) _ hs0]
    cases hg : g (s k) (xs.take c) with
    | error e2 => exact ⟨e2, by simp⟩
    | ok a => exact ⟨e', by simp [h']⟩

end NBK.RngObj
