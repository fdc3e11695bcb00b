import Verif.Rng.Model
import Verif.FrontPad.Props
import Verif.Comm.Basic

namespace NBK.Rng
open NBK.FrontPad (frontPad)

/-- The serial sequence, starting with chunk number `k`. -/
def serialFrom {ι β σ : Type} (c : Nat) (seedOf : Nat → σ) (sampler : σ → List ι → List β) :
    Nat → List ι → List β
  | k, rows =>
    if _h : rows.length > 0 ∧ 0 < c then
      sampler (seedOf k) (rows.take c) ++ serialFrom c seedOf sampler (k + 1) (rows.drop c)
    else []
termination_by _ rows => rows.length
decreasing_by simp; omega

variable {ι β σ : Type} {c : Nat} {seedOf : Nat → σ} {sampler : σ → List ι → List β}

theorem serial_length (hc : 0 < c) (hlen : ∀ s xs, (sampler s xs).length = xs.length) (k : Nat)
    (xs : List ι) : (serialFrom c seedOf sampler k xs).length = xs.length := by
  fun_induction serialFrom c seedOf sampler k xs with
  | case1 k xs h ih =>
    simp only [List.length_append, hlen, ih, List.length_take, List.length_drop]; omega
  | case2 k xs h =>
    simp only [List.length_nil]
    by_contra hne
    exact h ⟨by omega, hc⟩

theorem drop_take_min (xs : List ι) (m : Nat) :
    (xs.take m).drop (min (xs.take m).length c) = (xs.drop c).take (m - c) := by
  rw [List.drop_take]
  simp only [List.length_take]
  rcases Nat.le_total c (min m xs.length) with h | h
  · rw [Nat.min_eq_right h]
  · rw [Nat.min_eq_left h]
    have h1 : (xs.drop c).take (m - c) = [] := by
      rcases Nat.le_total m c with h' | h'
      · simp [Nat.sub_eq_zero_of_le h']
      · rcases Nat.eq_or_lt_of_le h' with h2 | h2
        · simp [h2]
        · rw [List.drop_eq_nil_of_le (by omega)]; simp
    rw [h1]
    rcases Nat.le_total m xs.length with h' | h'
    · simp [Nat.min_eq_left h']
    · rw [Nat.min_eq_right h', List.drop_length]; simp

theorem loop_spec (hc : 0 < c) (hlen : ∀ s xs, (sampler s xs).length = xs.length)
    (hpre : ∀ s xs n, sampler s (xs.take n) = (sampler s xs).take n) (nch : Nat)
    (xs : List ι) (k m : Nat) (hk : k * c + xs.length ≤ nch * c) :
    loop c ((List.range nch).map seedOf) sampler k (xs.take m)
      = .ok ((serialFrom c seedOf sampler k xs).take m) := by
  induction hn : xs.length using Nat.strongRecOn generalizing xs k m with
  | _ n ih =>
    subst hn
    rw [loop]
    by_cases hx : (xs.take m).length > 0
    · rw [dif_pos hx, dif_neg (by omega)]
      have hx' := hx
      simp only [List.length_take] at hx'
      have hkn : k < nch := by
        have : k * c < nch * c := by omega
        exact Nat.lt_of_mul_lt_mul_right this
      have hseed : ((List.range nch).map seedOf)[k]? = some (seedOf k) := by
        simp [hkn]
      have hkn1 : (k + 1) * c ≤ nch * c := Nat.mul_le_mul_right c hkn
      simp only [hseed]
      rw [drop_take_min]
      have hk' : (k + 1) * c + (xs.drop c).length ≤ nch * c := by
        rw [List.length_drop, Nat.succ_mul] at *
        omega
      rw [ih _ (by simp; omega) _ _ _ hk' rfl]
      simp only []
      have hS : serialFrom c seedOf sampler k xs = sampler (seedOf k) (xs.take c)
          ++ serialFrom c seedOf sampler (k + 1) (xs.drop c) := by
        rw [serialFrom, dif_pos ⟨by omega, hc⟩]
      rw [hS, List.take_append, hlen]
      have h1 : (xs.take m).take (min (xs.take m).length c) = (xs.take c).take m := by
        simp only [List.length_take, List.take_take]
        rcases Nat.le_total m xs.length with h' | h'
        · congr 1; omega
        · rw [List.take_eq_take_iff]; omega
      rw [h1, hpre]
      congr 2
      simp only [List.length_take]
      rcases Nat.le_total c xs.length with h' | h'
      · rw [Nat.min_eq_left h']
      · rw [List.drop_eq_nil_of_le h', serialFrom, dif_neg (by simp)]
        simp
    · rw [dif_neg hx]
      simp only [List.length_take] at hx
      rw [serialFrom]
      rcases Nat.eq_zero_or_pos m with h0 | h0
      · subst h0; simp
      · rw [dif_neg (by omega)]; simp

theorem serial_drop (hc : 0 < c) (hlen : ∀ s xs, (sampler s xs).length = xs.length)
    (xs : List ι) (k j : Nat) :
    (serialFrom c seedOf sampler k xs).drop (j * c)
      = serialFrom c seedOf sampler (k + j) (xs.drop (j * c)) := by
  induction j generalizing k xs with
  | zero => simp
  | succ j ih =>
    rw [serialFrom]
    split
    · rename_i h
      rw [Nat.succ_mul, Nat.add_comm (j * c) c, ← List.drop_drop, ← List.drop_drop, List.drop_append, hlen]
      have hd : (sampler (seedOf k) (xs.take c)).drop c = [] :=
        List.drop_eq_nil_of_le (by simp [hlen]; omega)
      rw [hd]
      rcases Nat.le_total c xs.length with h' | h'
      · simp only [List.length_take, Nat.min_eq_left h', Nat.sub_self, List.drop_zero, List.nil_append]
        rw [ih]; congr 1; omega
      · have e : xs.drop c = [] := List.drop_eq_nil_of_le h'
        rw [e]
        simp only [List.nil_append]
        rw [show serialFrom c seedOf sampler (k + 1) ([] : List ι) = [] by
          rw [serialFrom]; simp]
        rw [show serialFrom c seedOf sampler (k + (j + 1)) (([] : List ι).drop (j*c)) = [] by
          rw [serialFrom]; simp]
        simp
    · rename_i h
      have h0 : xs = [] := by
        rcases xs with _ | ⟨x, xs⟩
        · rfl
        · simp [hc] at h
      subst h0
      rw [serialFrom]; simp

end NBK.Rng

namespace NBK.Rng
open NBK.FrontPad (frontPad)
variable {ι β σ : Type} {c : Nat} {seedOf : Nat → σ} {sampler : σ → List ι → List β}

theorem mapM_id_ok {ε α : Type} (l : List α) :
    (l.map (fun a => (Except.ok a : Except ε α))).mapM id = .ok l := by
  induction l with
  | nil => rfl
  | cons a l ih => simp [List.mapM_cons, ih]; rfl

theorem start_eq (D : List (List ι)) (r : Nat) : start D r = (D.take r).flatten.length := by
  simp [start, List.length_flatten]

theorem start_eq_sum (D : List (List ι)) (r : Nat) : start D r = ((D.map List.length).take r).sum := by
  simp [start]

theorem start_le (D : List (List ι)) (r : Nat) : start D r ≤ D.flatten.length := by
  rw [start_eq]
  conv_rhs => rw [← List.take_append_drop r D, List.flatten_append, List.length_append]
  omega

theorem before_eq (D : List (List ι)) (f : Nat → Nat) (r : Nat) :
    NBK.FrontPad.before (D.mapIdx fun r d => (d, f r)) r = D.flatten.take (start D r) := by
  have h : ((D.mapIdx fun r d => (d, f r)).take r).map Prod.fst = D.take r := by
    apply List.ext_getElem?
    intro i
    simp only [List.getElem?_map, List.getElem?_take, List.getElem?_mapIdx]
    split
    · cases D[i]? <;> simp
    · rfl
  unfold NBK.FrontPad.before
  rw [h, start_eq]
  conv_rhs => rw [← List.take_append_drop r D, List.flatten_append]
  simp

/-- Serial reference sequence. -/
theorem call_eq (hc : 0 < c) (hlen : ∀ s xs, (sampler s xs).length = xs.length)
    (hpre : ∀ s xs n, sampler s (xs.take n) = (sampler s xs).take n) (D : List (List ι)) :
    call c seedOf sampler D = .ok ((D.map List.length).mapIdx fun r n =>
      ((serialFrom c seedOf sampler 0 D.flatten).drop (((D.map List.length).take r).sum)).take n) := by
  unfold call
  have hskip : ∀ r, skip c (start D r) ≤ start D r := fun r => by unfold skip; omega
  simp only []
  rw [NBK.FrontPad.frontPad_ok]
  · simp only []
    rw [← mapM_id_ok]
    congr 1
    apply List.ext_getElem?
    intro r
    simp only [List.getElem?_mapIdx, List.getElem?_map, List.mapIdx_mapIdx]
    cases hr : D[r]? with
    | none => simp
    | some d =>
      simp only [Option.map_some, Function.comp_def]
      congr 1
      have hst := start_le D r
      have hwin := NBK.Comm.rank_window D r d hr
      rw [← start_eq] at hwin
      have hdl : start D r + d.length ≤ D.flatten.length := by
        have := congrArg List.length hwin
        simp only [List.length_take, List.length_drop] at this
        omega
      have hk : firstIchunk c (start D r) * c + skip c (start D r) = start D r := by
        have := Nat.div_mul_le_self (start D r) c
        unfold skip firstIchunk; omega
      have hrows : NBK.FrontPad.lastK (skip c (start D r))
          (NBK.FrontPad.before (D.mapIdx fun r d => (d, skip c (start D r))) r) ++ d
          = (D.flatten.drop (firstIchunk c (start D r) * c)).take (skip c (start D r) + d.length) := by
        rw [before_eq D (fun r => skip c (start D r))]
        unfold NBK.FrontPad.lastK
        rw [List.take_add, List.drop_drop]
        congr 1
        · rw [List.drop_take]
          simp only [List.length_take, Nat.min_eq_left hst]
          congr 1
          · have := hskip r; omega
          · congr 1; have := hskip r; omega
        · rw [show firstIchunk c (start D r) * c + skip c (start D r) = start D r from hk]
          exact hwin
      rw [hrows, loop_spec hc hlen hpre]
      · simp only [Except.map]
        congr 1
        have := serial_drop (seedOf := seedOf) (sampler := sampler) hc hlen D.flatten 0 (firstIchunk c (start D r))
        rw [Nat.zero_add] at this
        rw [← this, List.drop_take, List.drop_drop, hk, ← start_eq_sum]
        congr 1; omega
      · have e : (D.map List.length).sum = D.flatten.length := by simp [List.length_flatten]
        rw [e, List.length_drop]
        have h1 : D.flatten.length ≤ nchunks c D.flatten.length * c := by
          unfold nchunks
          have := Nat.lt_div_mul_add (a := D.flatten.length + c - 1) hc
          omega
        omega
  · intro r p hp
    simp only [List.getElem?_mapIdx, Option.map_eq_some_iff] at hp
    obtain ⟨d, _, rfl⟩ := hp
    rw [before_eq D (fun r => skip c (start D r))]
    have := start_le D r
    have := hskip r
    simp only [List.length_take]; omega

theorem serial_get (hc : 0 < c) (hlen : ∀ s xs, (sampler s xs).length = xs.length)
    (xs : List ι) (k i : Nat) (hi : i < xs.length) :
    (serialFrom c seedOf sampler k xs)[i]?
      = (sampler (seedOf (k + i / c)) ((xs.drop (i / c * c)).take c))[i % c]? := by
  have h := serial_drop (seedOf := seedOf) (sampler := sampler) hc hlen xs k (i / c)
  have hdiv : i / c * c + i % c = i := by rw [Nat.mul_comm]; exact Nat.div_add_mod i c
  have hmod := Nat.mod_lt i hc
  conv_lhs => rw [← hdiv]
  rw [← List.getElem?_drop, h, serialFrom, dif_pos, List.getElem?_append_left]
  · rw [hlen]; simp; omega
  · simp; omega

end NBK.Rng
