import Verif.SurvTpcf.Props
import Verif.PcfObj.CrossProps

set_option linter.unusedSimpArgs false

/-! C141: units of the weights, exchanged samples, objects of weight zero. -/
noncomputable section
namespace NBK.SurvTpcf
open BoxTpcf (tally tallyN tallyS scaleC outcome SameW)
open Sky (Vec)

/-! ### The unit of the weights -/

/-- An object with its weight times a number. -/
def heavier (c : ℚ) (o : Obj) : Obj := { o with weight := c * o.weight }

/-- The weights of a catalog times a number. -/
def times (c : ℚ) (C : Cat) : Cat := C.map fun l => l.map (heavier c)

theorem times_all (c : ℚ) (C : Cat) : all (times c C) = (all C).map (heavier c) := by
  unfold times all
  rw [List.map_flatten]

theorem direct_times (rat : ℝ → ℚ) (k : Kw) (b : Bins) (X : List Obj) (Y : Option (List Obj)) (same : Bool) (c c' : ℚ)
    (hs : Y = none ∨ same = true → c' = c) :
    direct rat k b (X.map (heavier c)) (Y.map fun Y => Y.map (heavier c')) same = scaleC (c * c') (direct rat k b X Y same) := by
  have hg : (Y.map fun Y => Y.map (heavier c')).getD (X.map (heavier c)) = (Y.getD X).map (heavier c') := by
    cases Y with
    | none => rw [hs (.inl rfl)]; rfl
    | some _ => rfl
  have ew : ∀ (c : ℚ) (l : List Obj), ws (l.map (heavier c)) = (ws l).map (c * ·) := fun c l => by
    unfold ws
    rw [List.map_map, List.map_map]
    rfl
  have e1 : ∀ (c : ℚ) (l : List ℚ), (l.map (c * ·)).sum = c * l.sum := fun c l => by
    have := BoxTpcf.sum_mul c (fun x : ℚ => x) l
    simpa using this
  have e2 : ∀ (c : ℚ) (l : List ℚ), ((l.map (c * ·)).map fun w => w ^ 2).sum = c ^ 2 * (l.map fun w => w ^ 2).sum := fun c l => by
    rw [List.map_map, ← BoxTpcf.sum_mul]
    congr 1
    apply List.map_congr_left
    intro p _
    simp only [Function.comp]; ring
  have ht : total (ws (X.map (heavier c))) (if same then none else (Y.map fun Y => Y.map (heavier c')).map ws) =
      c * c' * total (ws X) (if same then none else Y.map ws) := by
    by_cases hsame : same = true
    · rw [if_pos hsame, if_pos hsame]
      unfold total
      simp only [Option.elim_none]
      rw [ew, e1, e2, hs (.inr hsame)]; ring
    · rw [if_neg hsame, if_neg hsame]
      cases Y with
      | none =>
        unfold total
        simp only [Option.map_none, Option.elim_none]
        rw [ew, e1, e2, hs (.inl rfl)]; ring
      | some y =>
        unfold total
        simp only [Option.map_some, Option.elim_some]
        rw [ew, ew, e1, e1]; ring
  unfold direct scaleC tally
  rw [hg, ht]
  have hN := fun n => BoxTpcf.tallyN_map (bin k b) (heavier c) (heavier c') X (Y.getD X) n (fun a c => rfl)
  have hS := fun n => BoxTpcf.tallyS_map (bin k b) (sep rat k b) (sep rat k b) (heavier c) (heavier c') X (Y.getD X) n (fun a c => rfl) (fun a c => rfl)
  have hW := fun n => BoxTpcf.tallyS_map (bin k b) (fun a d => c * c' * (a.weight * d.weight)) (fun a d => a.weight * d.weight)
    (heavier c) (heavier c') X (Y.getD X) n (fun a c => rfl) (fun a c => by simp only [heavier]; ring)
  simp only [hN, hS, hW, BoxTpcf.tallyS_times]
  congr 1
  · cases Y <;> rfl
  · simp [Function.comp_def]

theorem not_analytic {g : PcfObj.Args} (hs : PcfObj.counterOf g = .survey) : ¬ PcfObj.isAnalytic g = true := by
  intro h
  unfold PcfObj.isAnalytic at h
  unfold PcfObj.counterOf at hs
  simp only [Bool.and_eq_true, decide_eq_true_eq] at h
  rw [h.1] at hs
  simp at hs

/-- C141: the correlation function and `wp` do not depend on the unit of the weights of any catalog, of data or of randoms. -/
theorem tpcf_weights {P : Nat} (C : Nat → Cat) (hP : ∀ i, (C i).length = P) (c : Nat → ℚ) (hc : ∀ i, c i ≠ 0) (E : PcfObj.Env) (rat : ℝ → ℚ)
    (mach : Nat → Option Nat → Mach) (k : Kw) (hm : ∀ i j, (mach i j).Good P k.factor) (g : PcfObj.Args) (hs : PcfObj.counterOf g = .survey) (hb : Half g.bins) :
    outcome (tpcf E rat mach k (fun i => times (c i) (C i)) g) = outcome (tpcf E rat mach k C g) := by
  cases hck : Pairs.checkArgs g.bins.mode g.bins.edges g.bins.Nmu g.bins.pimax with
  | error x =>
    rw [show tpcf E rat mach k (fun i => times (c i) (C i)) g = tpcf E rat mach k C g from
      new_congr (e := envOf E rat mach k C) (e' := envOf E rat mach k fun i => times (c i) (C i)) hs (fun md h => by rw [hck] at h; cases h) rfl rfl]
  | ok md =>
  unfold tpcf
  apply BoxTpcf.new_scaled (κ := fun i j => c i * c (j.getD i)) g (fun h => absurd h (not_analytic hs))
  refine ⟨fun i j => mul_ne_zero (hc _) (hc _), fun i j => ?_, ?_, rfl, rfl, rfl, rfl, rfl⟩
  · rw [hs]
    unfold envOf
    simp only [if_true]
    rw [count_eq rat (mach i j) P k (hm i j) g.bins hck hb (times (c i) (C i)) _ _ (by simp [times, hP]),
      count_eq rat (mach i j) P k (hm i j) g.bins hck hb (C i) _ _ (hP i)]
    split
    · rfl
    split
    · rfl
    simp only [Except.map]
    congr 1
    have e4 : (j.map fun i => times (c i) (C i)).map all = (j.map fun j => all (C j)).map fun Y => Y.map (heavier (c (j.getD i))) := by
      cases j with
      | none => rfl
      | some j => simp [times_all]
    have e5 : (j.map C).map all = j.map fun j => all (C j) := by cases j <;> rfl
    rw [e4, e5, times_all]
    apply direct_times
    rintro (h | h)
    · cases j with
      | none => rfl
      | some j => cases h
    · have : j = some i := by simpa using h
      rw [this]; rfl
  · unfold envOf
    simp only
    funext i
    simp [times, Function.comp_def]

/-! ### Exchanged samples -/

theorem dot_comm (a c : Vec) : a.dot c = c.dot a := by unfold Sky.Vec.dot; ring

/-- The bin and the separation of two positions do not depend on their order. -/
theorem bin_comm (b : Bins) (a c : Vec) : SurvPairs.binOf (modeOf b) (edges b) a c = SurvPairs.binOf (modeOf b) (edges b) c a ∧
    sepOf (modeOf b) a c = sepOf (modeOf b) c a := by
  have hs : SurvPairs.sep a c = SurvPairs.sep c a := by
    rw [sep_dot, sep_dot, dot_comm a c]
    congr 1; ring
  have hl : SurvPairs.los a c = SurvPairs.los c a := by
    rw [los_dot, los_dot, dot_comm a c, abs_sub_comm]
    congr 2; ring
  have hp : SurvPairs.perp a c = SurvPairs.perp c a := by unfold SurvPairs.perp; rw [hs, hl]
  have ha : SurvPairs.angle a c = SurvPairs.angle c a := by
    unfold SurvPairs.angle
    rw [dot_comm a c, mul_comm a.norm]
  have hmu : ∀ n, muBin n a c = muBin n c a := fun n => by unfold muBin muOf; rw [hs, hl]
  unfold modeOf
  split
  · exact ⟨by simp only [SurvPairs.binOf, hs, hmu], by simp only [sepOf, hs]⟩
  split
  · exact ⟨by simp only [SurvPairs.binOf, hs, hmu], by simp only [sepOf, hs]⟩
  split
  · exact ⟨by simp only [SurvPairs.binOf, hp, hl], by simp only [sepOf, hp]⟩
  · exact ⟨by simp only [SurvPairs.binOf, ha], by simp only [sepOf, ha]⟩

/-- C141: a pair count is symmetric in the two catalogs. -/
theorem count_comm {P : Nat} {C : Nat → Cat} (hP : ∀ i, (C i).length = P) (E : PcfObj.Env) (rat : ℝ → ℚ) {mach : Nat → Option Nat → Mach} {k : Kw}
    (hm : ∀ i j, (mach i j).Good P k.factor) (b : Bins) {md : Pairs.Mode} (hck : Pairs.checkArgs b.mode b.edges b.Nmu b.pimax = .ok md) (hb : Half b) (i j : Nat) :
    (envOf E rat mach k C).count .survey b j (some i) = (envOf E rat mach k C).count .survey b i (some j) := by
  by_cases hij : i = j
  · rw [hij]
  unfold envOf
  simp only [if_true]
  have e1 : decide (some i = some j) = false := by simpa using hij
  have e2 : decide (some j = some i) = false := by simpa using fun h => hij h.symm
  rw [e1, e2, count_eq rat (mach j (some i)) P k (hm _ _) b hck hb (C j) _ _ (hP j), count_eq rat (mach i (some j)) P k (hm _ _) b hck hb (C i) _ _ (hP i)]
  have hd : direct rat k b (all (C j)) (((some i).map C).map all) false = direct rat k b (all (C i)) (((some j).map C).map all) false := by
    unfold direct
    simp only [Option.map_some, Option.getD_some, Bool.false_eq_true, if_false, Option.isSome_some, Bool.not_false, Bool.and_self]
    have hbin : ∀ p q, bin k b p q = bin k b q p := fun p q => (bin_comm b _ _).1
    have hsep : ∀ p q, sep rat k b p q = sep rat k b q p := fun p q => congrArg rat (bin_comm b _ _).2
    have hN := BoxTpcf.tallyN_swap hbin (all (C j)) (all (C i))
    have hS := BoxTpcf.tallyS_swap hbin hsep (all (C j)) (all (C i))
    have hW := BoxTpcf.tallyS_swap hbin (g := fun p q : Obj => p.weight * q.weight) (fun p q => mul_comm _ _) (all (C j)) (all (C i))
    unfold tally
    simp only [hN, hS, hW]
    congr 1
    unfold total
    simp only [Option.elim_some]
    ring
  rw [hd]

theorem accepted_of_new {e : PcfObj.Env} {g : PcfObj.Args} {o : PcfObj.Tpcf} (hs : PcfObj.counterOf g = .survey) (h : PcfObj.new e g = .ok o) :
    ∃ md, Pairs.checkArgs g.bins.mode g.bins.edges g.bins.Nmu g.bins.pimax = .ok md := by
  cases hck : Pairs.checkArgs g.bins.mode g.bins.edges g.bins.Nmu g.bins.pimax with
  | ok md => exact ⟨md, rfl⟩
  | error x =>
    exfalso
    have hc : ∀ i j, PcfObj.counted e .survey g.bins i j = .error .valueError := fun i j => by unfold PcfObj.counted; rw [hck]
    unfold PcfObj.new PcfObj.runBase at h
    rw [if_neg (not_analytic hs)] at h
    cases hr : g.randoms1 with
    | none => rw [hr] at h; cases h
    | some r1 =>
      rw [hr] at h
      simp only at h
      unfold PcfObj.runLS PcfObj.randomPairs at h
      cases hR : g.R1R2 with
      | some q => simp [hs, hc, hR, Except.bind] at h
      | none => simp [hs, hc, hR, Except.bind] at h

/-- C141: exchanging data and randoms of the two samples gives the same correlation function, `wp` and random pairs, with the two counts of data and
randoms exchanged. -/
theorem ls_swapped {P : Nat} {C : Nat → Cat} (hP : ∀ i, (C i).length = P) (E : PcfObj.Env) (rat : ℝ → ℚ) {mach : Nat → Option Nat → Mach} {k : Kw}
    (hm : ∀ i j, (mach i j).Good P k.factor) (g : PcfObj.Args) (hs : PcfObj.counterOf g = .survey) (hb : Half g.bins) (d r1 r2 : Nat) (hd : g.data2 = some d)
    (h1 : g.randoms1 = some r1) (h2 : g.randoms2 = some r2) (hR : g.R1R2 = none) (o : PcfObj.Tpcf) (ho : tpcf E rat mach k C g = .ok o) :
    ∃ o', tpcf E rat mach k C { g with data1 := d, data2 := some g.data1, randoms1 := some r2, randoms2 := some r1 } = .ok o' ∧
      o'.corr = o.corr ∧ o'.wp = o.wp ∧ o'.D1D2 = o.D1D2 ∧ o'.R1R2 = o.R1R2 ∧ o'.D1R2 = o.D2R1 ∧ o'.D2R1 = o.D1R2 := by
  unfold tpcf at ho ⊢
  obtain ⟨md, hck⟩ := accepted_of_new hs ho
  exact BoxTpcf.ls_swapped_env _ g d r1 r2 hd h1 h2 hR (by rw [hs]; exact count_comm hP E rat hm g.bins hck hb g.data1 d)
    (by rw [hs]; exact count_comm hP E rat hm g.bins hck hb r1 r2) o ho

/-! ### Objects of weight zero -/

/-- A catalog with objects of weight zero added. -/
def Padded (c c' : Cat) : Prop := ∃ Z : List Obj, (∀ p ∈ Z, p.weight = 0) ∧ c'.flatten = c.flatten ++ Z

theorem tallyS_zero_left (f : Obj → Obj → Option Nat) (Z Y : List Obj) (hZ : ∀ p ∈ Z, p.weight = 0) (n : Nat) :
    tallyS f (fun p q => p.weight * q.weight) Z Y n = 0 := by
  unfold tallyS
  apply BoxTpcf.sum_zero
  intro p hp
  apply BoxTpcf.sum_zero
  intro q _
  simp [hZ p hp]

theorem tallyS_zero_right (f : Obj → Obj → Option Nat) (Y Z : List Obj) (hZ : ∀ p ∈ Z, p.weight = 0) (n : Nat) :
    tallyS f (fun p q => p.weight * q.weight) Y Z n = 0 := by
  unfold tallyS
  apply BoxTpcf.sum_zero
  intro p _
  apply BoxTpcf.sum_zero
  intro q hq
  simp [hZ q hq]

theorem total_zero (X Z : List Obj) (hZ : ∀ p ∈ Z, p.weight = 0) : total (ws (X ++ Z)) none = total (ws X) none ∧
    ∀ (Y W : List Obj), (∀ p ∈ W, p.weight = 0) → total (ws (X ++ Z)) (some (ws (Y ++ W))) = total (ws X) (some (ws Y)) := by
  have hs : ∀ Z : List Obj, (∀ p ∈ Z, p.weight = 0) → (ws Z).sum = 0 := fun Z hZ => BoxTpcf.sum_zero _ Z hZ
  have hs2 : ((ws Z).map fun w => w ^ 2).sum = 0 := by
    unfold ws
    rw [List.map_map]
    exact BoxTpcf.sum_zero _ Z fun p hp => by simp [hZ p hp]
  have ha : ∀ A B : List Obj, ws (A ++ B) = ws A ++ ws B := fun A B => by simp [ws]
  refine ⟨?_, fun Y W hW => ?_⟩
  · simp only [total, Option.elim_none, ha, List.map_append, List.sum_append, hs Z hZ, hs2, add_zero]
  · simp only [total, Option.elim_some, ha, List.map_append, List.sum_append, hs Z hZ, hs W hW, add_zero]

theorem direct_zero (rat : ℝ → ℚ) (k : Kw) (b : Bins) (X Z : List Obj) (hZ : ∀ p ∈ Z, p.weight = 0) :
    (∀ same, SameW (direct rat k b X none same) (direct rat k b (X ++ Z) none same)) ∧
    SameW (direct rat k b X (some X) true) (direct rat k b (X ++ Z) (some (X ++ Z)) true) ∧
    ∀ (Y W : List Obj), (∀ p ∈ W, p.weight = 0) → SameW (direct rat k b X (some Y) false) (direct rat k b (X ++ Z) (some (Y ++ W)) false) := by
  have hr : ∀ (Y W : List Obj), (∀ p ∈ W, p.weight = 0) → ∀ n, tallyS (bin k b) (fun p q => p.weight * q.weight) (X ++ Z) (Y ++ W) n =
      tallyS (bin k b) (fun p q => p.weight * q.weight) X Y n := by
    intro Y W hW n
    rw [BoxTpcf.tallyS_append_left, BoxTpcf.tallyS_append_right, tallyS_zero_left _ Z _ hZ, tallyS_zero_right _ X W hW, add_zero, add_zero]
  refine ⟨fun same => ⟨?_, ?_⟩, ⟨?_, ?_⟩, fun Y W hW => ⟨?_, ?_⟩⟩
  · simp only [direct, Option.map_none, ite_self]
    exact (total_zero X Z hZ).1
  · simp only [direct, tally, Option.getD_none, List.map_map]
    exact List.map_congr_left fun n _ => hr X Z hZ n
  · simp only [direct, if_true]
    exact (total_zero X Z hZ).1
  · simp only [direct, tally, Option.getD_some, List.map_map]
    exact List.map_congr_left fun n _ => hr X Z hZ n
  · simp only [direct, Bool.false_eq_true, if_false]
    exact (total_zero X Z hZ).2 Y W hW
  · simp only [direct, tally, Option.getD_some, List.map_map]
    exact List.map_congr_left fun n _ => hr Y W hW n

/-- C141: data of weight zero do not count: the values of the correlation function are those without them. (The mean separations of the data pairs may
differ.) -/
theorem zero_weight {P : Nat} {C C' : Nat → Cat} (hP : ∀ i, (C i).length = P) (hP' : ∀ i, (C' i).length = P) (E : PcfObj.Env) (rat : ℝ → ℚ)
    {mach : Nat → Option Nat → Mach} {k : Kw} (hm : ∀ i j, (mach i j).Good P k.factor) {g : PcfObj.Args} (hs : PcfObj.counterOf g = .survey) (hb : Half g.bins)
    (hpad : ∀ i, Padded (C i) (C' i)) (r1 : Nat) (hr : g.randoms1 = some r1) (hsame : C' r1 = C r1 ∧ C' (g.randoms2.getD r1) = C (g.randoms2.getD r1))
    (o o' : PcfObj.Tpcf) (ho : tpcf E rat mach k C g = .ok o) (ho' : tpcf E rat mach k C' g = .ok o') :
    PcfObj.columnOf o'.corr "corr" = PcfObj.columnOf o.corr "corr" := by
  unfold tpcf at ho ho'
  obtain ⟨md, hck⟩ := accepted_of_new hs ho
  refine BoxTpcf.ls_sameW_env _ _ g r1 hr ?_ ?_ o o' ho ho'
  · intro i j x x' hx hx'
    rw [hs] at hx hx'
    unfold envOf at hx hx'
    simp only [if_true] at hx hx'
    rw [count_eq rat (mach i j) P k (hm i j) g.bins hck hb (C i) _ _ (hP i)] at hx
    rw [count_eq rat (mach i j) P k (hm i j) g.bins hck hb (C' i) _ _ (hP' i)] at hx'
    split at hx
    · cases hx
    rename_i h1
    rw [if_neg h1] at hx'
    split at hx
    · cases hx
    rename_i h2
    rw [if_neg h2] at hx'
    cases hx
    cases hx'
    obtain ⟨Z, hZ, hall⟩ := hpad i
    obtain ⟨d1, d2, d3⟩ := direct_zero rat k g.bins (all (C i)) Z hZ
    have e : all (C' i) = all (C i) ++ Z := hall
    rw [e]
    cases j with
    | none => exact d1 _
    | some j =>
      by_cases hji : j = i
      · subst hji
        simp only [Option.map_some, decide_true, e]
        exact d2
      · have : decide (some j = some i) = false := by simpa using hji
        rw [this]
        obtain ⟨W, hW, hall'⟩ := hpad j
        have e' : all (C' j) = all (C j) ++ W := hall'
        simp only [Option.map_some, e']
        exact d3 (all (C j)) W hW
  · rw [hs]
    unfold envOf
    simp only [if_true, Option.map_some, hsame.1, hsame.2]

end NBK.SurvTpcf
