import Verif.Fof.Mass
import Verif.Fof.LabelsProps
import Mathlib.Tactic.FieldSimp
import Mathlib.Tactic.Ring
import Mathlib.Algebra.Order.Floor.Ring
import Mathlib.Algebra.Order.BigOperators.Group.List

/-!
# C54, C55: counts, centers of mass and peaks of the groups
-/
namespace NBK.Fof
set_option linter.unusedSimpArgs false

/-- The values of all particles with label `v`, over all ranks. -/
def group {β : Type} (D : List (List (Nat × β))) (v : Nat) : List β := (D.flatten.filter fun p => p.1 = v).map Prod.snd

theorem nhalo0_spec (L : List (List Nat)) (hne : L ≠ []) (hr : ∀ l ∈ L, l ≠ []) :
    ∃ n, nhalo0 L = .ok n ∧ (∀ v ∈ L.flatten, v < n) ∧ 0 < n ∧ n - 1 ∈ L.flatten := by
  obtain ⟨m, hm, hml, hms⟩ := mapM_ex localMax (fun l x => x ∈ l ∧ ∀ y ∈ l, y ≤ x) L (by
    intro l hl
    obtain ⟨x, hx⟩ := reduce_isSome max l (hr l hl)
    exact ⟨x, by unfold localMax; rw [hx], reduce_max_spec l x hx⟩)
  have hmne : m ≠ [] := by
    intro h; rw [h] at hml; exact hne (List.length_eq_zero_iff.mp hml.symm)
  obtain ⟨M, hM⟩ := reduce_isSome max m hmne
  obtain ⟨hMm, hMx⟩ := reduce_max_spec m M hM
  refine ⟨M + 1, ?_, ?_, by omega, ?_⟩
  · unfold nhalo0
    rw [hm]
    simp only [bind, Except.bind, hM]
  · intro v hv
    obtain ⟨l, hl, hvl⟩ := List.mem_flatten.mp hv
    obtain ⟨j, hj, rfl⟩ := List.getElem_of_mem hl
    obtain ⟨z, hz, -, hz2⟩ := hms j L[j] (List.getElem?_eq_getElem hj)
    have := le_trans (hz2 v hvl) (hMx z (List.mem_of_getElem? hz))
    omega
  · obtain ⟨i, hi, hiM⟩ := List.getElem_of_mem hMm
    have hiL : i < L.length := by omega
    obtain ⟨y, hy, hy1, -⟩ := hms i L[i] (List.getElem?_eq_getElem hiL)
    rw [List.getElem?_eq_getElem hi, hiM] at hy
    obtain rfl := Option.some.inj hy
    exact List.mem_flatten.mpr ⟨_, List.getElem_mem hiL, by simpa using hy1⟩

/-- C54: `count` gives the global number of particles of every label from 0 to the largest one. -/
theorem count_spec (label : List (List Nat)) (hne : label ≠ []) (hr : ∀ l ∈ label, l ≠ []) :
    ∃ N, count label = .ok N ∧ (∀ v ∈ label.flatten, v < N.length) ∧ N.length - 1 ∈ label.flatten ∧
      ∀ v < N.length, N[v]? = some (label.flatten.count v) := by
  obtain ⟨n, hn, h1, h2, h3⟩ := nhalo0_spec label hne hr
  refine ⟨(List.range n).map fun v => (label.map fun l => l.count v).sum, ?_, by simpa using h1, by simpa using h3, ?_⟩
  · unfold count; rw [hn]; rfl
  · intro v hv
    rw [List.getElem?_map, List.getElem?_range (by simpa using hv), List.count_flatten]; rfl

/-- Not the claim "for every distribution": an empty rank raises. -/
theorem count_empty_rank (label : List (List Nat)) (he : [] ∈ label) : count label = .error .valueError := by
  have key : ∀ L : List (List Nat), [] ∈ L → L.mapM localMax = .error .valueError := by
    intro L
    induction L with
    | nil => intro h; cases h
    | cons l L ih =>
      intro hl
      rw [List.mapM_cons]
      cases l with
      | nil => rfl
      | cons a l =>
        rw [ih (by simpa using hl)]
        rfl
  unfold count nhalo0
  rw [key _ he]
  rfl

theorem members_filter {β : Type} (d : List (Nat × β)) (v : Nat) :
    members (d.map Prod.fst) (d.map Prod.snd) v = (d.filter fun p => p.1 = v).map Prod.snd := by
  unfold members
  induction d using List.reverseRecOn with
  | nil => rfl
  | append_singleton d q ih =>
    rw [List.length_map, List.length_append, List.length_singleton, List.range_succ, List.filter_append,
      List.filterMap_append, List.filter_append, List.map_append (f := Prod.snd) (l₁ := d.filter _), ← ih, List.length_map]
    congr 1
    · have e : ((List.range d.length).filter fun k => decide (((d ++ [q]).map Prod.fst)[k]? = some v)) =
          (List.range d.length).filter fun k => decide ((d.map Prod.fst)[k]? = some v) := by
        apply List.filter_congr
        intro k hk
        have hk' : k < d.length := by simpa using hk
        rw [List.map_append, List.getElem?_append_left (by simpa using hk')]
      rw [e]
      apply List.filterMap_congr
      intro k hk
      have hk' : k < d.length := by simpa using (List.mem_filter.mp hk).1
      rw [List.map_append, List.getElem?_append_left (by simpa using hk')]
    · by_cases h : q.1 = v
      · simp [h]
      · simp [h]

theorem reduce_add (l : List ℚ) : (reduce (· + ·) l).getD 0 = l.sum := by
  cases l with
  | nil => rfl
  | cons a l =>
    show l.foldl (· + ·) a = _
    rw [List.sum_cons]
    induction l generalizing a with
    | nil => simp
    | cons b l ih => rw [List.foldl_cons, ih, List.sum_cons]; ring

theorem reduce_add_some (l : List ℚ) (h : l ≠ []) : reduce (· + ·) l = some l.sum := by
  obtain ⟨x, hx⟩ := reduce_isSome (· + ·) l h
  rw [hx, ← reduce_add, hx]; rfl

theorem filterMap_range {α β : Type} (ds : List α) (g : α → Nat → β) (n v : Nat) (hv : v < n) :
    (ds.map fun d => (List.range n).map (g d)).filterMap (·[v]?) = ds.map fun d => g d v := by
  induction ds with
  | nil => rfl
  | cons d ds ih =>
    have : ((List.range n).map (g d))[v]? = some (g d v) := by rw [List.getElem?_map, List.getElem?_range hv]; rfl
    rw [List.map_cons, List.filterMap_cons_some (f := fun l : List β => l[v]?) this, ih, List.map_cons]

theorem group_sum (D : List (List (Nat × ℚ))) (v : Nat) :
    (D.map fun d => ((d.filter fun p => p.1 = v).map Prod.snd).sum).sum = (group D v).sum := by
  unfold group
  induction D with
  | nil => rfl
  | cons d D ih => rw [List.map_cons, List.sum_cons, ih, List.flatten_cons, List.filter_append, List.map_append, List.sum_append]

theorem labelSums_eq {argsort : List Nat → List Nat} (hA : IsArgsort argsort) (n : Nat) (D : List (List (Nat × ℚ)))
    (hne : D ≠ []) (hn : ∀ p ∈ D.flatten, p.1 < n) :
    labelSums argsort n D = .ok ((List.range n).map fun v => some (group D v).sum) := by
  unfold labelSums
  rw [mapM_ok _ (fun d => (List.range n).map fun v => ((d.filter fun p => p.1 = v).map Prod.snd).sum)]
  · show Except.ok _ = _
    congr 1
    unfold allreduce
    apply List.map_congr_left
    intro v hv
    rw [filterMap_range D _ n v (by simpa using hv), reduce_add_some _ (by simpa using hne), group_sum]
  · intro d hd
    rw [equivClass_comm argsort hA (· + ·) (fun a b => add_comm a b) (fun a b c => add_assoc a b c) 0 n _ _ (by simp) (by
      intro x hx
      obtain ⟨p, hp, rfl⟩ := List.mem_map.mp hx
      exact hn p (List.mem_flatten.mpr ⟨d, hd, hp⟩))]
    congr 1
    apply List.map_congr_left
    intro v _
    rw [members_filter, reduce_add]

theorem labelsOf_flatten {β : Type} (D : List (List (Nat × β))) : (labelsOf D).flatten = D.flatten.map Prod.fst := by
  unfold labelsOf; rw [List.map_flatten]

theorem labelsOf_ne {β : Type} (D : List (List (Nat × β))) (hr : ∀ d ∈ D, d ≠ []) : ∀ l ∈ labelsOf D, l ≠ [] := by
  intro l hl
  obtain ⟨d, hd, rfl⟩ := List.mem_map.mp hl
  simpa using hr d hd

theorem group_length {β : Type} (D : List (List (Nat × β))) (v : Nat) : (group D v).length = (labelsOf D).flatten.count v := by
  rw [labelsOf_flatten, group, List.length_map, ← List.countP_eq_length_filter, List.count, List.countP_map]
  apply List.countP_congr
  intro p _; simp

theorem meanOf_eq (N : List Nat) (tot : List (Option ℚ)) (v c : Nat) (s : ℚ) (hN : N[v]? = some c) (ht : tot[v]? = some (some s)) :
    meanOf N tot v = if c = 0 then none else some (s / (c : ℚ)) := by
  unfold meanOf
  rw [hN, ht]
  cases c with
  | zero => rfl
  | succ c => rfl

/-- C54: without a box (and for velocities), `centerofmass` is, for each label up to the largest, the mean of the values of all its
particles on all ranks (undefined for a label without particles). -/
theorem centerOfMass_mean (argsort : List Nat → List Nat) (hA : IsArgsort argsort) (D : List (List (Nat × ℚ))) (hne : D ≠ [])
    (hr : ∀ d ∈ D, d ≠ []) :
    ∃ r, centerOfMass argsort none D = .ok r ∧ (∀ p ∈ D.flatten, p.1 < r.length) ∧
      ∀ v < r.length, r[v]? = some (if group D v = [] then none else some ((group D v).sum / ((group D v).length : ℚ))) := by
  obtain ⟨N, hN, h1, -, h3⟩ := count_spec (labelsOf D) (by simpa [labelsOf] using hne) (labelsOf_ne D hr)
  have hlt : ∀ p ∈ D.flatten, p.1 < N.length := by
    intro p hp; exact h1 p.1 (by rw [labelsOf_flatten]; exact List.mem_map_of_mem hp)
  refine ⟨(List.range N.length).map (meanOf N ((List.range N.length).map fun v => some (group D v).sum)), ?_, by simpa using hlt, ?_⟩
  · unfold centerOfMass
    rw [hN]
    simp only [bind, Except.bind]
    rw [labelSums_eq hA _ D hne hlt]
    rfl
  · intro v hv
    have hv' : v < N.length := by simpa using hv
    rw [List.getElem?_map, List.getElem?_range hv', Option.map_some]
    congr 1
    rw [meanOf_eq N _ v _ (group D v).sum (h3 v hv') (by rw [List.getElem?_map, List.getElem?_range hv']; rfl), ← group_length]
    simp only [List.length_eq_zero_iff]

theorem fminInf_cases (a b : Option ℚ) : fminInf a b = a ∨ fminInf a b = b := by
  cases a with
  | none => right; rfl
  | some a =>
    cases b with
    | none => left; rfl
    | some b =>
      rcases le_total a b with h | h
      · left; show some (min a b) = _; rw [min_eq_left h]
      · right; show some (min a b) = _; rw [min_eq_right h]

theorem fminInf_some (a b : Option ℚ) (h : a ≠ none ∨ b ≠ none) : fminInf a b ≠ none := by
  cases a with
  | none => cases b with
    | none => simp at h
    | some b => simp [fminInf]
  | some a => cases b <;> simp [fminInf]

theorem reduce_fmin (l : List (Option ℚ)) (h : ∃ x ∈ l, x ≠ none) : ∃ m : ℚ, reduce fminInf l = some (some m) ∧ some m ∈ l := by
  cases l with
  | nil => obtain ⟨x, hx, -⟩ := h; cases hx
  | cons a l =>
    have key : ∀ (l : List (Option ℚ)) (a : Option ℚ), (∃ x ∈ a :: l, x ≠ none) →
        ∃ m : ℚ, l.foldl fminInf a = some m ∧ some m ∈ a :: l := by
      intro l
      induction l with
      | nil =>
        intro a h
        obtain ⟨x, hx, hxn⟩ := h
        simp only [List.mem_cons, List.not_mem_nil, or_false] at hx
        subst hx
        obtain ⟨m, hm⟩ := Option.ne_none_iff_exists'.mp hxn
        exact ⟨m, by simpa using hm, by simp [hm]⟩
      | cons b l ih =>
        intro a h
        obtain ⟨m, hm, hmem⟩ := ih (fminInf a b) (by
          obtain ⟨x, hx, hxn⟩ := h
          rcases List.mem_cons.mp hx with rfl | hx
          · exact ⟨_, by simp, fminInf_some _ b (Or.inl hxn)⟩
          · rcases List.mem_cons.mp hx with rfl | hx
            · exact ⟨_, by simp, fminInf_some a _ (Or.inr hxn)⟩
            · exact ⟨x, by simp [hx], hxn⟩)
        refine ⟨m, by simpa using hm, ?_⟩
        rcases List.mem_cons.mp hmem with e | e
        · rcases fminInf_cases a b with e' | e' <;> rw [e, e'] <;> simp
        · simp [e]
    obtain ⟨m, h1, h2⟩ := key l a h
    exact ⟨m, congrArg some h1, h2⟩

theorem members_map {β γ : Type} (f : β → γ) (labels : List Nat) (values : List β) (v : Nat) :
    members labels (values.map f) v = (members labels values v).map f := by
  unfold members
  rw [List.map_filterMap]
  apply List.filterMap_congr
  intro k _
  rw [List.getElem?_map]

theorem fminInf_comm (a b : Option ℚ) : fminInf a b = fminInf b a := by
  cases a <;> cases b <;> simp [fminInf, min_comm]

theorem fminInf_assoc (a b c : Option ℚ) : fminInf (fminInf a b) c = fminInf a (fminInf b c) := by
  cases a <;> cases b <;> cases c <;> simp [fminInf, min_assoc]

/-- The reference position of a label with particles is the position of one of them, the same on all ranks. -/
theorem labelMins_spec {argsort : List Nat → List Nat} (hA : IsArgsort argsort) (n : Nat) (D : List (List (Nat × ℚ)))
    (hn : ∀ p ∈ D.flatten, p.1 < n) :
    ∃ mins, labelMins argsort n D = .ok mins ∧ ∀ v, group D v ≠ [] → refOf mins v ∈ group D v := by
  refine ⟨allreduce n fminInf (D.map fun d => (List.range n).map fun v =>
    (reduce fminInf ((d.filter fun p => p.1 = v).map fun p => some p.2)).getD none), ?_, ?_⟩
  · unfold labelMins
    rw [mapM_ok _ (fun d => (List.range n).map fun v =>
      (reduce fminInf ((d.filter fun p => p.1 = v).map fun p => some p.2)).getD none)]
    · rfl
    · intro d hd
      rw [equivClass_comm argsort hA fminInf fminInf_comm fminInf_assoc none n _ _ (by simp) (by
        intro x hx
        obtain ⟨p, hp, rfl⟩ := List.mem_map.mp hx
        exact hn p (List.mem_flatten.mpr ⟨d, hd, hp⟩))]
      congr 1
      apply List.map_congr_left
      intro v _
      have e : (d.map fun p => some p.2) = (d.map Prod.snd).map some := by rw [List.map_map]; rfl
      rw [e, members_map, members_filter, List.map_map]
      rfl
  · intro v hv
    obtain ⟨x, hx⟩ := List.exists_mem_of_ne_nil _ hv
    obtain ⟨p, hp, rfl⟩ := List.mem_map.mp hx
    obtain ⟨hpD, hpv⟩ := List.mem_filter.mp hp
    simp only [decide_eq_true_eq] at hpv
    have hvn : v < n := by rw [← hpv]; exact hn p hpD
    obtain ⟨d, hd, hpd⟩ := List.mem_flatten.mp hpD
    obtain ⟨m, hm, hmem⟩ := reduce_fmin (D.map fun d =>
        (reduce fminInf ((d.filter fun p => p.1 = v).map fun p => some p.2)).getD none) (by
      refine ⟨_, List.mem_map.mpr ⟨d, hd, rfl⟩, ?_⟩
      obtain ⟨m, hm, -⟩ := reduce_fmin ((d.filter fun p => p.1 = v).map fun p => some p.2)
        ⟨some p.2, List.mem_map.mpr ⟨p, List.mem_filter.mpr ⟨hpd, by simpa using hpv⟩, rfl⟩, by simp⟩
      rw [hm]; simp)
    have href : refOf (allreduce n fminInf (D.map fun d => (List.range n).map fun v =>
        (reduce fminInf ((d.filter fun p => p.1 = v).map fun p => some p.2)).getD none)) v = m := by
      unfold refOf allreduce
      rw [List.getD_eq_getElem?_getD, List.getElem?_map, List.getElem?_range hvn, Option.map_some, Option.getD_some,
        filterMap_range D _ n v hvn, hm]
      rfl
    rw [href]
    obtain ⟨d', hd', e⟩ := List.mem_map.mp hmem
    have hne : ∃ x ∈ (d'.filter fun p => p.1 = v).map (fun p => some p.2), x ≠ (none : Option ℚ) := by
      cases hc : (d'.filter fun p => p.1 = v) with
      | nil => rw [hc] at e; simp [reduce] at e
      | cons q l => exact ⟨some q.2, by simp, by simp⟩
    obtain ⟨m', hm', hmem'⟩ := reduce_fmin _ hne
    rw [hm', Option.getD_some] at e
    obtain rfl := Option.some.inj e
    obtain ⟨q, hq, e'⟩ := List.mem_map.mp hmem'
    obtain ⟨hqd, hqv⟩ := List.mem_filter.mp hq
    refine List.mem_map.mpr ⟨q, List.mem_filter.mpr ⟨List.mem_flatten.mpr ⟨d', hd', hqd⟩, hqv⟩, Option.some.inj e'⟩

/-- One period is enough for positions in the box: `wrap` finds the separation of the unwrapped positions. -/
theorem wrap_eq (L x y : ℚ) (hx : 0 ≤ x) (hx' : x < L) (hy : 0 ≤ y) (hy' : y < L) (i j : ℤ)
    (hclose : |(x + i * L) - (y + j * L)| < L / 2) : wrap L (x - y) = (x + i * L) - (y + j * L) := by
  have hL : 0 < L := by linarith
  obtain ⟨k, hk⟩ : ∃ k : ℤ, k = i - j := ⟨_, rfl⟩
  have e : (x + i * L) - (y + j * L) = (x - y) + (k : ℚ) * L := by rw [hk]; push_cast; ring
  rw [e] at hclose ⊢
  rw [abs_lt] at hclose
  have h1 : k < 2 := by
    by_contra h
    have : (2 : ℚ) ≤ k := by exact_mod_cast not_lt.mp h
    nlinarith
  have h2 : -2 < k := by
    by_contra h
    have : (k : ℚ) ≤ -2 := by exact_mod_cast not_lt.mp h
    nlinarith
  have : k = -1 ∨ k = 0 ∨ k = 1 := by omega
  unfold wrap
  dsimp only
  rcases this with rfl | rfl | rfl
  · push_cast at hclose ⊢
    have c : ¬ x - y < -(L * (1 / 2)) := by intro h; linarith
    simp only [if_neg c]
    rw [if_pos (by linarith)]; ring
  · push_cast at hclose ⊢
    have c : ¬ x - y < -(L * (1 / 2)) := by intro h; linarith
    simp only [if_neg c]
    rw [if_neg (by intro h; linarith)]; ring
  · push_cast at hclose ⊢
    have c : x - y < -(L * (1 / 2)) := by linarith
    simp only [if_pos c]
    rw [if_neg (by intro h; linarith)]; ring

theorem ratMod_spec (x L : ℚ) (hL : 0 < L) : 0 ≤ ratMod x L ∧ ratMod x L < L ∧ ∃ j : ℤ, ratMod x L = x + j * L := by
  unfold ratMod
  have h1 := Int.floor_le (x / L)
  have h2 := Int.lt_floor_add_one (x / L)
  have e : x / L * L = x := by field_simp
  refine ⟨by nlinarith, by nlinarith, -⌊x / L⌋, by push_cast; ring⟩

/-- **C54**: in a periodic box, for positions in `[0, L)` and every label whose particles have unwrapped positions (each shifted by
some whole number of periods) within less than half a box, `centerofmass` is the mean of these unwrapped positions, brought back
into the box: for every distribution over (non-empty) ranks. -/
theorem centerOfMass_periodic (argsort : List Nat → List Nat) (hA : IsArgsort argsort) (D : List (List (Nat × ℚ))) (hne : D ≠ [])
    (hr : ∀ d ∈ D, d ≠ []) (L : ℚ) (hbox : ∀ p ∈ D.flatten, 0 ≤ p.2 ∧ p.2 < L) :
    ∃ r, centerOfMass argsort (some L) D = .ok r ∧ (∀ p ∈ D.flatten, p.1 < r.length) ∧
      ∀ v < r.length, (group D v = [] → r[v]? = some none) ∧
        ∀ shift : ℚ → ℤ, (∀ x ∈ group D v, ∀ y ∈ group D v, |(x + shift x * L) - (y + shift y * L)| < L / 2) →
          group D v ≠ [] →
          ∃ c, r[v]? = some (some c) ∧ 0 ≤ c ∧ c < L ∧
            ∃ j : ℤ, c = ((group D v).map fun x => x + shift x * L).sum / ((group D v).length : ℚ) + j * L := by
  obtain ⟨N, hN, h1, -, h3⟩ := count_spec (labelsOf D) (by simpa [labelsOf] using hne) (labelsOf_ne D hr)
  have hlt : ∀ p ∈ D.flatten, p.1 < N.length := by
    intro p hp; exact h1 p.1 (by rw [labelsOf_flatten]; exact List.mem_map_of_mem hp)
  obtain ⟨mins, hmins, href⟩ := labelMins_spec hA N.length D hlt
  obtain ⟨D', hD'⟩ : ∃ D', D' = D.map fun d => d.map fun p => (p.1, wrap L (p.2 - refOf mins p.1)) := ⟨_, rfl⟩
  have hfl : D'.flatten = D.flatten.map fun p => (p.1, wrap L (p.2 - refOf mins p.1)) := by rw [hD', List.map_flatten]
  have hgrp : ∀ v, group D' v = (group D v).map fun x => wrap L (x - refOf mins v) := by
    intro v
    unfold group
    rw [hfl, List.filter_map, List.map_map, List.map_map]
    apply List.map_congr_left
    intro p hp
    have : p.1 = v := by simpa using (List.mem_filter.mp hp).2
    simp [this]
  have hlt' : ∀ p ∈ D'.flatten, p.1 < N.length := by
    intro p hp
    rw [hfl] at hp
    obtain ⟨q, hq, rfl⟩ := List.mem_map.mp hp
    exact hlt q hq
  refine ⟨(List.range N.length).map fun v =>
    (meanOf N ((List.range N.length).map fun v => some (group D' v).sum) v).map fun m => ratMod (refOf mins v + m) L,
    ?_, by simpa using hlt, ?_⟩
  · unfold centerOfMass
    rw [hN]
    simp only [bind, Except.bind]
    rw [hmins]
    simp only
    rw [← hD', labelSums_eq hA _ D' (by rw [hD']; simpa using hne) hlt']
    rfl
  · intro v hv
    have hv' : v < N.length := by simpa using hv
    have hmean := meanOf_eq N ((List.range N.length).map fun v => some (group D' v).sum) v _ (group D' v).sum (h3 v hv')
      (by rw [List.getElem?_map, List.getElem?_range hv']; rfl)
    rw [← group_length] at hmean
    rw [List.getElem?_map, List.getElem?_range hv', Option.map_some, hmean]
    refine ⟨fun h0 => by rw [h0]; rfl, fun shift hclose hne' => ?_⟩
    have hpos : 0 < (group D v).length := List.length_pos_iff.mpr hne'
    rw [if_neg (by omega), Option.map_some]
    have hm := href v hne'
    have hin : ∀ x ∈ group D v, 0 ≤ x ∧ x < L := by
      intro x hx
      obtain ⟨p, hp, rfl⟩ := List.mem_map.mp hx
      exact hbox p (List.mem_filter.mp hp).1
    have hL : 0 < L := by have := hin _ hm; linarith
    obtain ⟨c1, c2, j, hj⟩ := ratMod_spec (refOf mins v + (group D' v).sum / ((group D v).length : ℚ)) L hL
    refine ⟨_, rfl, c1, c2, j - shift (refOf mins v), ?_⟩
    rw [hj]
    have hsum : ∀ l : List ℚ, (∀ x ∈ l, x ∈ group D v) →
        (l.map fun x => wrap L (x - refOf mins v)).sum =
          (l.map fun x => x + shift x * L).sum - (l.length : ℚ) * (refOf mins v + shift (refOf mins v) * L) := by
      intro l
      induction l with
      | nil => intro _; simp
      | cons x l ih =>
        intro hl
        have hx := hl x (by simp)
        rw [List.map_cons, List.sum_cons, ih fun y hy => hl y (by simp [hy]), List.map_cons, List.sum_cons,
          wrap_eq L x (refOf mins v) (hin x hx).1 (hin x hx).2 (hin _ hm).1 (hin _ hm).2 (shift x) (shift (refOf mins v))
            (hclose x hx _ hm), List.length_cons]
        push_cast; ring
    rw [hgrp v, hsum _ fun x hx => hx]
    have hpos' : ((group D v).length : ℚ) ≠ 0 := by
      have : (0 : ℚ) < ((group D v).length : ℚ) := by exact_mod_cast hpos
      exact ne_of_gt this
    rw [sub_div, mul_div_cancel_left₀ _ hpos']
    push_cast
    ring

theorem reduce_fmax (l : List (Option ℚ)) (h : ∃ x ∈ l, x ≠ none) :
    ∃ m : ℚ, reduce fmaxInf l = some (some m) ∧ some m ∈ l ∧ ∀ y : ℚ, some y ∈ l → y ≤ m := by
  cases l with
  | nil => obtain ⟨x, hx, -⟩ := h; cases hx
  | cons a l =>
    have key : ∀ (l : List (Option ℚ)) (a : Option ℚ), (∃ x ∈ a :: l, x ≠ none) →
        ∃ m : ℚ, l.foldl fmaxInf a = some m ∧ some m ∈ a :: l ∧ ∀ y : ℚ, some y ∈ a :: l → y ≤ m := by
      intro l
      induction l with
      | nil =>
        intro a h
        obtain ⟨x, hx, hxn⟩ := h
        simp only [List.mem_cons, List.not_mem_nil, or_false] at hx
        subst hx
        obtain ⟨m, rfl⟩ := Option.ne_none_iff_exists'.mp hxn
        exact ⟨m, rfl, by simp, by intro y hy; simp at hy; exact le_of_eq hy⟩
      | cons b l ih =>
        intro a h
        have hne : ∃ x ∈ fmaxInf a b :: l, x ≠ none := by
          obtain ⟨x, hx, hxn⟩ := h
          rcases List.mem_cons.mp hx with rfl | hx
          · refine ⟨fmaxInf x b, List.mem_cons_self, ?_⟩
            cases x with
            | none => exact absurd rfl hxn
            | some x => cases b <;> simp [fmaxInf]
          · rcases List.mem_cons.mp hx with rfl | hx
            · refine ⟨fmaxInf a x, List.mem_cons_self, ?_⟩
              cases x with
              | none => exact absurd rfl hxn
              | some x => cases a <;> simp [fmaxInf]
            · exact ⟨x, by simp [hx], hxn⟩
        obtain ⟨m, hm, hmem, hub⟩ := ih (fmaxInf a b) hne
        refine ⟨m, hm, ?_, ?_⟩
        · rcases List.mem_cons.mp hmem with e | e
          · have : fmaxInf a b = a ∨ fmaxInf a b = b := by
              cases a with
              | none => right; rfl
              | some a =>
                cases b with
                | none => left; rfl
                | some b =>
                  rcases le_total a b with h | h
                  · right; show some (max a b) = _; rw [max_eq_right h]
                  · left; show some (max a b) = _; rw [max_eq_left h]
            rcases this with e' | e' <;> rw [e, e'] <;> simp
          · simp [e]
        · have hab : ∀ y : ℚ, a = some y ∨ b = some y → y ≤ m := by
            intro y hy
            have hc : ∃ z : ℚ, fmaxInf a b = some z ∧ y ≤ z := by
              rcases hy with rfl | rfl
              · cases b with
                | none => exact ⟨y, rfl, le_refl _⟩
                | some b => exact ⟨max y b, rfl, le_max_left _ _⟩
              · cases a with
                | none => exact ⟨y, rfl, le_refl _⟩
                | some a => exact ⟨max a y, rfl, le_max_right _ _⟩
            obtain ⟨z, hz, hyz⟩ := hc
            exact le_trans hyz (hub z (by rw [hz]; simp))
          intro y hy
          rcases List.mem_cons.mp hy with e | hy
          · exact hab y (Or.inl e.symm)
          · rcases List.mem_cons.mp hy with e | hy
            · exact hab y (Or.inr e.symm)
            · exact hub y (by simp [hy])
    obtain ⟨m, h1, h2⟩ := key l a h
    exact ⟨m, congrArg some h1, h2⟩

theorem fmaxInf_comm (a b : Option ℚ) : fmaxInf a b = fmaxInf b a := by
  cases a <;> cases b <;> simp [fmaxInf, max_comm]

theorem fmaxInf_assoc (a b c : Option ℚ) : fmaxInf (fmaxInf a b) c = fmaxInf a (fmaxInf b c) := by
  cases a <;> cases b <;> cases c <;> simp [fmaxInf, max_assoc]

/-- **C55**: the peak labels keep the label of exactly those particles whose density is the largest in their group, over all ranks. -/
theorem peakLabels_spec (argsort : List Nat → List Nat) (hA : IsArgsort argsort) (D : List (List (Nat × ℚ))) (hne : D ≠ [])
    (hr : ∀ d ∈ D, d ≠ []) :
    ∃ keep : Nat × ℚ → Nat, peakLabels argsort D = .ok (D.map fun d => d.map keep) ∧
      ∀ p ∈ D.flatten, ((∀ q ∈ D.flatten, q.1 = p.1 → q.2 ≤ p.2) → keep p = p.1) ∧
        ((∃ q ∈ D.flatten, q.1 = p.1 ∧ p.2 < q.2) → keep p = 0) := by
  obtain ⟨N, hN, h1, -, h3⟩ := count_spec (labelsOf D) (by simpa [labelsOf] using hne) (labelsOf_ne D hr)
  have hlt : ∀ p ∈ D.flatten, p.1 < N.length := by
    intro p hp; exact h1 p.1 (by rw [labelsOf_flatten]; exact List.mem_map_of_mem hp)
  obtain ⟨g, hg⟩ : ∃ g : List (Nat × ℚ) → Nat → Option ℚ,
    g = fun d v => (reduce fmaxInf ((d.filter fun p => p.1 = v).map fun p => some p.2)).getD none := ⟨_, rfl⟩
  refine ⟨fun p => match ((allreduce N.length fmaxInf (D.map fun d => (List.range N.length).map (g d))).getD p.1 none).getD none with
    | none => p.1
    | some m => if p.2 ≥ m then p.1 else 0, ?_, ?_⟩
  · unfold peakLabels
    rw [hN]
    simp only [bind, Except.bind]
    rw [mapM_ok _ (fun d => (List.range N.length).map (g d))]
    · rfl
    · intro d hd
      rw [equivClass_comm argsort hA fmaxInf fmaxInf_comm fmaxInf_assoc none N.length _ _ (by simp) (by
        intro x hx
        obtain ⟨p, hp, rfl⟩ := List.mem_map.mp hx
        exact hlt p (List.mem_flatten.mpr ⟨d, hd, hp⟩))]
      congr 1
      apply List.map_congr_left
      intro v _
      have e : (d.map fun p => some p.2) = (d.map Prod.snd).map some := by rw [List.map_map]; rfl
      rw [e, members_map, members_filter, List.map_map, hg]
      rfl
  · intro p hp
    have hvn := hlt p hp
    obtain ⟨d, hd, hpd⟩ := List.mem_flatten.mp hp
    have hgd : ∀ d ∈ D, ∀ q ∈ d, q.1 = p.1 → ∃ z : ℚ, g d p.1 = some z ∧ q.2 ≤ z := by
      intro d hd q hq hqp
      obtain ⟨z, hz, -, hz'⟩ := reduce_fmax ((d.filter fun q => q.1 = p.1).map fun q => some q.2)
        ⟨some q.2, List.mem_map.mpr ⟨q, List.mem_filter.mpr ⟨hq, by simpa using hqp⟩, rfl⟩, by simp⟩
      refine ⟨z, by rw [hg]; simp only [hz, Option.getD_some], ?_⟩
      exact hz' q.2 (List.mem_map.mpr ⟨q, List.mem_filter.mpr ⟨hq, by simpa using hqp⟩, rfl⟩)
    obtain ⟨m, hm, hmem, hub⟩ := reduce_fmax (D.map fun d => g d p.1) (by
      obtain ⟨z, hz, -⟩ := hgd d hd p hpd rfl
      exact ⟨_, List.mem_map.mpr ⟨d, hd, rfl⟩, by rw [hz]; simp⟩)
    have hget : ((allreduce N.length fmaxInf (D.map fun d => (List.range N.length).map (g d))).getD p.1 none).getD none = some m := by
      unfold allreduce
      rw [List.getD_eq_getElem?_getD, List.getElem?_map, List.getElem?_range hvn, Option.map_some, Option.getD_some,
        filterMap_range D _ N.length p.1 hvn, hm]
      rfl
    have hmq : ∃ q ∈ D.flatten, q.1 = p.1 ∧ q.2 = m := by
      obtain ⟨d', hd', e⟩ := List.mem_map.mp hmem
      have hne' : ∃ x ∈ (d'.filter fun q => q.1 = p.1).map (fun q => some q.2), x ≠ (none : Option ℚ) := by
        cases hc : (d'.filter fun q => q.1 = p.1) with
        | nil => rw [hg] at e; simp only [hc] at e; simp [reduce] at e
        | cons q l => exact ⟨some q.2, by simp, by simp⟩
      obtain ⟨m', hm', hmem', -⟩ := reduce_fmax _ hne'
      rw [hg] at e
      simp only [hm', Option.getD_some] at e
      obtain rfl := Option.some.inj e
      obtain ⟨q, hq, e'⟩ := List.mem_map.mp hmem'
      obtain ⟨hqd, hqv⟩ := List.mem_filter.mp hq
      exact ⟨q, List.mem_flatten.mpr ⟨d', hd', hqd⟩, by simpa using hqv, Option.some.inj e'⟩
    have hall : ∀ q ∈ D.flatten, q.1 = p.1 → q.2 ≤ m := by
      intro q hq hqp
      obtain ⟨d', hd', hqd⟩ := List.mem_flatten.mp hq
      obtain ⟨z, hz, hqz⟩ := hgd d' hd' q hqd hqp
      exact le_trans hqz (hub z (List.mem_map.mpr ⟨d', hd', hz⟩))
    simp only [hget]
    obtain ⟨q, hq, hqp, hqm⟩ := hmq
    constructor
    · intro hmax
      rw [if_pos (by rw [← hqm]; exact hmax q hq hqp)]
    · rintro ⟨q', hq', hq'p, hlt'⟩
      have := hall q' hq' hq'p
      rw [if_neg (by intro h; linarith)]

example : ∃ keep : Nat × ℚ → Nat, peakLabels stableArgsort [[(1, 3), (0, 5)], [(1, 4)]] =
    .ok ([[(1, 3), (0, 5)], [(1, 4)]].map fun d => d.map keep) ∧ keep (1, 3) = 0 ∧ keep (1, 4) = 1 := by
  obtain ⟨keep, h1, h2⟩ := peakLabels_spec stableArgsort stableArgsort_isArgsort [[(1, 3), (0, 5)], [(1, 4)]] (by simp) (by simp)
  refine ⟨keep, h1, (h2 (1, 3) (by simp)).2 ⟨(1, 4), by simp, rfl, by norm_num⟩, (h2 (1, 4) (by simp)).1 ?_⟩
  intro q hq
  simp at hq
  rcases hq with rfl | rfl | rfl <;> norm_num

/-- A group across the boundary of a box of size 10, on two ranks: its center is at 0. -/
example : ∃ r, centerOfMass stableArgsort (some 10) [[(0, 9)], [(0, 1)]] = .ok r ∧
    ∃ c : ℚ, r[0]? = some (some c) ∧ ∃ j : ℤ, c = j * 10 := by
  obtain ⟨r, h1, h2, h3⟩ := centerOfMass_periodic stableArgsort stableArgsort_isArgsort [[(0, 9)], [(0, 1)]] (by simp) (by simp)
    10 (by intro p hp; simp at hp; rcases hp with rfl | rfl <;> norm_num)
  have hg : group [[((0 : Nat), (9 : ℚ))], [(0, 1)]] 0 = [9, 1] := by decide
  obtain ⟨c, hc, -, -, j, hj⟩ := (h3 0 (h2 (0, 9) (by simp))).2 (fun x => if x = 9 then -1 else 0) (by
    rw [hg]
    intro x hx y hy
    simp only [List.mem_cons, List.not_mem_nil, or_false] at hx hy
    rcases hx with rfl | rfl <;> rcases hy with rfl | rfl <;> norm_num [abs_lt]) (by rw [hg]; simp)
  rw [hg] at hj
  refine ⟨r, h1, c, hc, j, ?_⟩
  rw [hj]; norm_num

end NBK.Fof
