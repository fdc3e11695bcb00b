import Verif.SpeciesMesh.Model
import Verif.Paint.Props
import Mathlib.Tactic.FieldSimp
import Mathlib.Tactic.Ring
import Mathlib.Algebra.BigOperators.Ring.List
import Mathlib.Tactic.Linarith

set_option linter.unusedSimpArgs false

/-! C52: the mesh of several species. -/
namespace NBK.SpeciesMesh
open NBK.Paint

/-- All selected rows of all species. -/
def allRows (sp : List Species) : List Row := (sp.map fun s => selected s.ranks).flatten

/-- The total weight of one species. -/
def weightOf (s : Species) : ℚ := ((selected s.ranks).map Row.weight).sum

/-- The sum of the squared weights of one species. -/
def weight2Of (s : Species) : ℚ := ((selected s.ranks).map fun r => r.weight * r.weight).sum

theorem steps_spec (dest : Row → List Nat) (maxc ncells : Nat) (volume : ℚ) (sp : List Species) (a a' : Acc)
    (h : steps dest maxc ncells volume a sp = .ok a') :
    a'.mesh.Perm (a.mesh ++ allRows sp) ∧ a'.N = a.N + (allRows sp).length ∧
    a'.nbar = a.nbar + (sp.map weightOf).sum / ncells ∧
    ∃ rs : List Result, a'.per = a.per ++ (sp.map Species.name).zip rs ∧ rs.map Result.W = sp.map weightOf ∧
      rs.map Result.W2 = sp.map weight2Of := by
  induction sp generalizing a with
  | nil =>
    simp only [steps, Except.ok.injEq] at h
    subst h
    exact ⟨by simp [allRows], by simp [allRows], by simp, [], by simp, rfl, rfl⟩
  | cons s sp ih =>
    rw [steps] at h
    cases hs : step dest maxc ncells volume a s with
    | error e => rw [hs] at h; cases h
    | ok b =>
      rw [hs] at h
      simp only at h
      unfold step at hs
      cases hp : paint dest maxc s.ranks ncells volume false with
      | error e => rw [hp] at hs; cases hs
      | ok r =>
        rw [hp] at hs
        simp only [Except.ok.injEq] at hs
        subst hs
        have hr := paint_exactly_once _ _ _ _ _ _ _ hp
        obtain ⟨h1, h2, h3, rs, h4, h5, h6⟩ := ih _ h
        refine ⟨?_, ?_, ?_, r :: rs, ?_, ?_, ?_⟩
        · refine h1.trans ?_
          simp only [allRows, List.map_cons, List.flatten_cons, List.append_assoc]
          exact List.Perm.append_left _ (List.Perm.append_right _ hr.1)
        · rw [h2, hr.2.1]
          simp only [allRows, List.map_cons, List.flatten_cons, List.length_append]
          omega
        · rw [h3, hr.2.2.2.2.1]
          simp only [List.map_cons, List.sum_cons, weightOf]
          ring
        · rw [h4]; simp
        · simp only [List.map_cons, h5, hr.2.2.1, weightOf]
        · simp only [List.map_cons, h6, hr.2.2.2.1, weight2Of]

theorem sumOpt_some (l : List ℚ) : sumOpt (l.map some) = some l.sum := by
  induction l with
  | nil => rfl
  | cons a l ih => rw [List.map_cons, sumOpt, ih]; rfl

theorem sumOpt_none (l : List (Option ℚ)) (h : none ∈ l) : sumOpt l = none := by
  induction l with
  | nil => simp at h
  | cons a l ih =>
    rw [sumOpt]
    rcases List.mem_cons.mp h with h | h
    · rw [← h]; rfl
    · rw [ih h]; cases a <;> rfl

/-- C52: every selected row of every species is deposited once with its own weight and value, `N` is their number,
`num_per_cell` the total weight per cell, and the factor of a normalized mesh is its inverse. -/
theorem field_eq (dest : Row → List Nat) (maxc ncells : Nat) (volume : ℚ) (normalize : Bool) (sp : List Species)
    (f : Field) (h : toRealField dest maxc ncells volume normalize sp = .ok f) :
    f.mesh.Perm (allRows sp) ∧ f.N = (allRows sp).length ∧ f.nbar = ((allRows sp).map Row.weight).sum / ncells ∧
    f.factor = (if normalize then fdiv 1 f.nbar else some 1) := by
  unfold toRealField at h
  cases hs : steps dest maxc ncells volume ⟨[], 0, 0, []⟩ sp with
  | error e => rw [hs] at h; cases h
  | ok a =>
    rw [hs] at h
    simp only [Except.ok.injEq] at h
    obtain ⟨h1, h2, h3, _⟩ := steps_spec _ _ _ _ _ _ _ hs
    subst h
    refine ⟨by simpa using h1, by simpa using h2, ?_, rfl⟩
    simp only [h3, zero_add]
    congr 1
    unfold allRows
    rw [List.map_flatten, List.sum_flatten, List.map_map, List.map_map]
    rfl

/-- C52: for unit values and a positive total weight, the normalized mesh has mean one. -/
theorem field_mean_one (dest : Row → List Nat) (maxc ncells : Nat) (hc : 0 < ncells) (volume : ℚ) (sp : List Species)
    (f : Field) (h : toRealField dest maxc ncells volume true sp = .ok f) (hv : ∀ r ∈ allRows sp, r.value = 1)
    (hW : 0 < ((allRows sp).map Row.weight).sum) :
    ∃ c, f.factor = some c ∧ c * (f.mesh.map fun r => r.weight * r.value).sum / ncells = 1 := by
  obtain ⟨h1, _, h3, h4⟩ := field_eq _ _ _ _ _ _ _ h
  have hcq : (0 : ℚ) < ncells := by exact_mod_cast hc
  have hn : f.nbar ≠ 0 := by rw [h3]; exact (div_pos hW hcq).ne'
  refine ⟨1 / f.nbar, by rw [h4, if_pos rfl, fdiv, if_neg hn], ?_⟩
  have : (f.mesh.map fun r => r.weight * r.value).sum = ((allRows sp).map Row.weight).sum := by
    rw [(h1.map _).sum_eq]
    congr 1
    apply List.map_congr_left
    intro r hr
    rw [hv r hr, mul_one]
  rw [this, h3]
  field_simp

/-- C52: the result is that of painting a single catalog with the rows of all species. -/
theorem field_union (dest dest' : Row → List Nat) (maxc maxc' ncells : Nat) (volume : ℚ) (normalize : Bool)
    (sp : List Species) (ranks : List (List Row)) (f : Field) (res : Result)
    (hp : ranks.flatten.Perm (sp.map fun s => s.ranks.flatten).flatten)
    (h : toRealField dest maxc ncells volume normalize sp = .ok f)
    (h' : paint dest' maxc' ranks ncells volume normalize = .ok res) :
    f.mesh.Perm res.mesh ∧ f.N = res.N ∧ f.nbar = res.nbar := by
  obtain ⟨h1, h2, h3, _⟩ := field_eq _ _ _ _ _ _ _ h
  have hr := paint_exactly_once _ _ _ _ _ _ _ h'
  have hperm : (selected ranks).Perm (allRows sp) := by
    unfold selected allRows
    have e : (sp.map fun s => selected s.ranks).flatten =
        ((sp.map fun s => s.ranks.flatten).flatten).filter fun r => r.sel := by
      rw [List.filter_flatten, List.map_map]
      rfl
    rw [e]
    exact hp.filter _
  refine ⟨h1.trans (hperm.symm.trans hr.1.symm), by rw [h2, hr.2.1, hperm.length_eq], ?_⟩
  rw [h3, hr.2.2.2.2.1, (hperm.map _).sum_eq]

theorem shot_terms (volume total : ℚ) (rs : List Result) (ht : total ≠ 0) (hW : ∀ r ∈ rs, r.W ≠ 0) :
    rs.map (shotTerm volume total) = (rs.map fun r => volume * r.W2 / total ^ 2).map some := by
  rw [List.map_map]
  apply List.map_congr_left
  intro r hr
  have := hW r hr
  simp only [shotTerm, fdiv, shotOf, if_neg ht, if_neg this, bind, Option.bind, pure, Function.comp_def]
  congr 1
  field_simp

/-- The shot noise: if every species has a non-zero total weight (and so has their sum), it is that of the union of all
species, volume times the sum of the squared weights over the squared sum of the weights. -/
theorem field_shotnoise_partial (dest : Row → List Nat) (maxc ncells : Nat) (volume : ℚ) (normalize : Bool)
    (sp : List Species) (f : Field) (h : toRealField dest maxc ncells volume normalize sp = .ok f)
    (hW : ∀ s ∈ sp, weightOf s ≠ 0) (ht : ((allRows sp).map Row.weight).sum ≠ 0) :
    f.shotnoise = some (volume * ((allRows sp).map fun r => r.weight * r.weight).sum /
      ((allRows sp).map Row.weight).sum ^ 2) := by
  unfold toRealField at h
  cases hs : steps dest maxc ncells volume ⟨[], 0, 0, []⟩ sp with
  | error e => rw [hs] at h; cases h
  | ok a =>
    rw [hs] at h
    simp only [Except.ok.injEq] at h
    obtain ⟨_, _, _, rs, h4, h5, h6⟩ := steps_spec _ _ _ _ _ _ _ hs
    subst h
    simp only
    rw [h4, List.nil_append]
    have hlen : rs.length = sp.length := by simpa using congrArg List.length h5
    have e1 : ((sp.map Species.name).zip rs).map (fun p => p.2.W) = sp.map weightOf := by
      have : (fun p : String × Result => p.2.W) = Result.W ∘ Prod.snd := rfl
      rw [this, ← List.map_map, List.map_snd_zip (by simp [hlen]), h5]
    have etot : (sp.map weightOf).sum = ((allRows sp).map Row.weight).sum := by
      unfold allRows
      rw [List.map_flatten, List.sum_flatten, List.map_map, List.map_map]
      rfl
    have etot2 : (sp.map weight2Of).sum = ((allRows sp).map fun r => r.weight * r.weight).sum := by
      unfold allRows
      rw [List.map_flatten, List.sum_flatten, List.map_map, List.map_map]
      rfl
    rw [e1, etot]
    have e2 : ((sp.map Species.name).zip rs).map
        (fun p => shotTerm volume ((allRows sp).map Row.weight).sum p.2) =
        rs.map (shotTerm volume ((allRows sp).map Row.weight).sum) := by
      rw [show (fun p : String × Result => shotTerm volume ((allRows sp).map Row.weight).sum p.2) =
        (shotTerm volume ((allRows sp).map Row.weight).sum) ∘ Prod.snd from rfl, ← List.map_map,
        List.map_snd_zip (by simp [hlen])]
    rw [e2, shot_terms volume _ rs ht ?_, sumOpt_some]
    · congr 1
      rw [← etot2, ← h6, ← List.sum_map_mul_left]
      rw [div_eq_mul_inv, ← List.sum_map_mul_right]
      simp only [div_eq_mul_inv]
    · intro r hr hz
      have : r.W ∈ sp.map weightOf := by rw [← h5]; exact List.mem_map.mpr ⟨r, hr, rfl⟩
      obtain ⟨s, hs', he⟩ := List.mem_map.mp this
      exact hW s hs' (by rw [he, hz])

/-- The shot noise is NaN as soon as one species has total weight zero, for instance no objects. -/
theorem shotnoise_nan (dest : Row → List Nat) (maxc ncells : Nat) (volume : ℚ) (normalize : Bool)
    (sp : List Species) (f : Field) (h : toRealField dest maxc ncells volume normalize sp = .ok f) (s : Species)
    (hs : s ∈ sp) (h0 : weightOf s = 0) : f.shotnoise = none := by
  unfold toRealField at h
  cases hst : steps dest maxc ncells volume ⟨[], 0, 0, []⟩ sp with
  | error e => rw [hst] at h; cases h
  | ok a =>
    rw [hst] at h
    simp only [Except.ok.injEq] at h
    obtain ⟨_, _, _, rs, h4, h5, _⟩ := steps_spec _ _ _ _ _ _ _ hst
    subst h
    simp only
    apply sumOpt_none
    rw [h4, List.nil_append]
    have hlen : rs.length = sp.length := by simpa using congrArg List.length h5
    have : weightOf s ∈ rs.map Result.W := by rw [h5]; exact List.mem_map.mpr ⟨s, hs, rfl⟩
    obtain ⟨r, hr, he⟩ := List.mem_map.mp this
    have hz : r ∈ ((sp.map Species.name).zip rs).map Prod.snd := by
      rw [List.map_snd_zip (by simp [hlen])]; exact hr
    obtain ⟨p, hp, rfl⟩ := List.mem_map.mp hz
    refine List.mem_map.mpr ⟨p, hp, ?_⟩
    unfold shotTerm shotOf
    rw [he, h0, if_pos rfl]
    cases fdiv 0 (List.map (fun p => p.2.W) ((sp.map Species.name).zip rs)).sum <;> rfl

/-- Without any weight the normalized mesh is NaN (a single catalog gives the uniform mesh 1). -/
theorem empty_mesh_nan (dest : Row → List Nat) (maxc ncells : Nat) (volume : ℚ) (sp : List Species) (f : Field)
    (h : toRealField dest maxc ncells volume true sp = .ok f) (h0 : allRows sp = []) : f.factor = none := by
  obtain ⟨_, _, h3, h4⟩ := field_eq _ _ _ _ _ _ _ h
  rw [h4, if_pos rfl, h3, h0]
  simp [fdiv]

/-- Painting succeeds for every list of species with at most `2 * paint_chunk_size` ranks. -/
theorem field_succeeds (dest : Row → List Nat) (maxc ncells : Nat) (hm : 0 < maxc) (volume : ℚ) (normalize : Bool)
    (sp : List Species) (hP : ∀ s ∈ sp, s.ranks.length ≤ 2 * maxc) :
    ∃ f, toRealField dest maxc ncells volume normalize sp = .ok f := by
  have key : ∀ a, ∃ a', steps dest maxc ncells volume a sp = .ok a' := by
    induction sp with
    | nil => exact fun a => ⟨a, rfl⟩
    | cons s sp ih =>
      intro a
      obtain ⟨r, hr⟩ := paint_succeeds dest maxc hm s.ranks (hP s (by simp)) ncells volume false
      obtain ⟨a', ha⟩ := ih (fun s hs => hP s (by simp [hs]))
        ⟨a.mesh ++ r.mesh, a.nbar + r.nbar, a.N + r.N, a.per ++ [(s.name, r)]⟩
      exact ⟨a', by rw [steps, step, hr]; exact ha⟩
  obtain ⟨a, ha⟩ := key ⟨[], 0, 0, []⟩
  exact ⟨_, by unfold toRealField; rw [ha]⟩

/-- Two species on two ranks, one row not selected: the mesh has mean one, and the shot noise is that of the union. -/
example : ∃ f, toRealField (fun _ => [0]) 1 8 16 true
      [⟨"a", [[⟨1, 1, 1, true⟩, ⟨2, 3, 1, false⟩], [⟨3, 2, 1, true⟩]]⟩, ⟨"b", [[], [⟨4, 5, 1, true⟩]]⟩] = .ok f ∧
    f.N = 3 ∧ f.nbar = 1 ∧ f.shotnoise = some (16 * 30 / 64) := by
  obtain ⟨f, h⟩ := field_succeeds (fun _ => [0]) 1 8 (by decide) 16 true
    [⟨"a", [[⟨1, 1, 1, true⟩, ⟨2, 3, 1, false⟩], [⟨3, 2, 1, true⟩]]⟩, ⟨"b", [[], [⟨4, 5, 1, true⟩]]⟩] (by simp)
  have h1 := field_eq _ _ _ _ _ _ _ h
  have h2 := field_shotnoise_partial _ _ _ _ _ _ _ h (by decide +kernel) (by decide +kernel)
  refine ⟨f, h, h1.2.1, ?_, ?_⟩
  · rw [h1.2.2.1]; decide +kernel
  · rw [h2]; decide +kernel

end NBK.SpeciesMesh
