import Verif.SurvTpcf.Model
import Verif.SurvPairs.Props
import Verif.BoxTpcf.UnitProps

set_option linter.unusedSimpArgs false

/-! The counts of a survey in terms of the objects alone. -/
noncomputable section
namespace NBK.SurvTpcf
open BoxTpcf (tally tallyN tallyS)

/-- All objects of a catalog. -/
def all (c : Cat) : List Obj := c.flatten

/-- The position of an object. -/
def posOf (k : Kw) (b : Bins) (o : Obj) : Sky.Vec := SurvPairs.cartesian (distOf k b) o

/-- The bin of a pair of objects. -/
def bin (k : Kw) (b : Bins) (p q : Obj) : Option Nat := SurvPairs.binOf (modeOf b) (edges b) (posOf k b p) (posOf k b q)

/-- The separation of a pair that is averaged. -/
def sep (rat : ℝ → ℚ) (k : Kw) (b : Bins) (p q : Obj) : ℚ := rat (sepOf (modeOf b) (posOf k b p) (posOf k b q))

/-- The number of bins. -/
def nbins (b : Bins) : Nat := (b.edges.length - 1) * (modeOf b).second.getD 1

/-- What the ranks must keep: every rank takes part in the reduction, and every cell has a rank. -/
structure Mach.Good (M : Mach) (P factor : Nat) : Prop where
  tree : M.tree.ranks.Perm (List.range P)
  cells : ∀ axis, 0 < factor * M.np axis
  rank : ∀ i j k, i < factor * M.np 0 → j < factor * M.np 1 → k < factor * M.np 2 → M.rank i j k < P

/-- Angles up to 180 degrees. -/
def Half (b : Bins) : Prop := b.mode = "angular" → Pairs.maxEdge b.edges ≤ 180

theorem maxEdge_cast (l : List ℚ) : SurvPairs.maxEdge (l.map fun q : ℚ => (q : ℝ)) = ((Pairs.maxEdge l : ℚ) : ℝ) := by
  unfold SurvPairs.maxEdge Pairs.maxEdge
  have : ∀ (a : ℚ), (l.map fun q : ℚ => (q : ℝ)).foldl max (a : ℝ) = ((l.foldl max a : ℚ) : ℝ) := by
    induction l with
    | nil => intro a; rfl
    | cons x l ih =>
      intro a
      simp only [List.map_cons, List.foldl_cons]
      rw [← ih]
      congr 1
      exact (Rat.cast_max a x).symm
  simpa using this 0

theorem angular_iff {b : Bins} {md : Pairs.Mode} (h : Pairs.checkArgs b.mode b.edges b.Nmu b.pimax = .ok md) :
    (modeOf b).isAngular = true ↔ b.mode = "angular" := by
  obtain ⟨hm, -⟩ := PcfObj.accepted h
  unfold modeOf
  rcases hm with hm | ⟨hm, -⟩ | ⟨hm, -⟩ | hm <;> simp [hm, SurvPairs.Mode.isAngular]

theorem second_pos {b : Bins} {md : Pairs.Mode} (h : Pairs.checkArgs b.mode b.edges b.Nmu b.pimax = .ok md) (h0 : ¬ (b.mode = "2d" ∧ b.Nmu = some 0)) :
    ∀ m, (modeOf b).second = some m → 0 < m := by
  obtain ⟨hm, -⟩ := PcfObj.accepted h
  intro m hs
  unfold modeOf at hs
  rcases hm with hm | ⟨hm, n, hn⟩ | ⟨hm, p, hp, h1⟩ | hm
  · simp [hm, SurvPairs.Mode.second] at hs; omega
  · simp [hm, SurvPairs.Mode.second, hn] at hs
    subst hs
    exact Nat.pos_of_ne_zero fun hz => h0 ⟨hm, by rw [hn, hz]⟩
  · simp only [hm, SurvPairs.Mode.second, hp, String.reduceEq, if_false, if_true, Option.getD_some, Option.some.injEq] at hs
    subst hs
    have h2 : (1 : ℝ) ≤ (p : ℝ) := by exact_mod_cast h1
    have : (1 : ℤ) ≤ ⌊(p : ℝ)⌋ := Int.le_floor.mpr (by simpa using h2)
    omega
  · simp [hm, SurvPairs.Mode.second] at hs

/-- The normalisation of two sets of weights. -/
def total (X : List ℚ) (Y : Option (List ℚ)) : ℚ :=
  Y.elim (1 / 2 * (X.sum ^ 2 - (X.map fun w => w ^ 2).sum)) fun Y => 1 / 2 * X.sum * Y.sum

/-- The weights of objects. -/
def ws (X : List Obj) : List ℚ := X.map SurvPairs.Obj.weight

theorem weights_flatten (c : Cat) : (weights c).flatten = ws (all c) := by
  unfold weights all ws
  rw [List.map_flatten]

theorem total_eq (first : Cat) (second : Option Cat) (same : Bool) :
    Pairs.totalWnpairs (weights first) (if same then .same else second.elim .none fun c => .other (weights c)) =
      total (ws (all first)) (if same then none else second.map fun c => ws (all c)) := by
  have h1 := Pairs.allsum_sum (weights first)
  rw [weights_flatten] at h1
  have h2 := Pairs.allsum_sq (weights first)
  rw [weights_flatten] at h2
  cases same with
  | true =>
    simp only [if_true, Pairs.totalWnpairs, total, Option.elim_none]
    rw [h1, h2]
  | false =>
    cases second with
    | none =>
      simp only [Bool.false_eq_true, if_false, Option.elim_none, Option.map_none, Pairs.totalWnpairs, total]
      rw [h1, h2]
    | some c =>
      have h3 := Pairs.allsum_sum (weights c)
      rw [weights_flatten] at h3
      simp only [Bool.false_eq_true, if_false, Option.elim_some, Option.map_some, Pairs.totalWnpairs, total]
      rw [h1, h3]

/-- The result of a pair count in terms of the objects alone. -/
def direct (rat : ℝ → ℚ) (k : Kw) (b : Bins) (X : List Obj) (Y : Option (List Obj)) (same : Bool) : PcfObj.Count :=
  let t := tally (nbins b) (bin k b) SurvPairs.Obj.weight (sep rat k b) X (Y.getD X)
  ⟨total (ws X) (if same then none else Y.map ws), Y.isSome && !same, t.1, t.2⟩

theorem pairs_eq (rat : ℝ → ℚ) (M : Mach) (P : Nat) (k : Kw) (hM : M.Good P k.factor) (b : Bins) {md : Pairs.Mode}
    (hck : Pairs.checkArgs b.mode b.edges b.Nmu b.pimax = .ok md) (hb : Half b) (hc : b.mode = "angular" ∨ k.cosmo.isSome)
    (h0 : ¬ (b.mode = "2d" ∧ b.Nmu = some 0)) (first : Cat) (second : Option Cat) (hP : first.length = P) :
    ∃ out, SurvPairs.surveyPairs (modeOf b) (edges b) k.cosmo k.factor M.np M.rank
      (fun p q => rat (sepOf (modeOf b) (SurvPairs.cartesian (distOf k b) p) (SurvPairs.cartesian (distOf k b) q)))
      (Pairs.sepColumn (modeOf b).name) (some 0) k.showProgress M.tree first second = .ok out ∧
      ((out.rows.map fun o => val o.x), out.rows.map fun o => (o.npairs, o.wnpairs.getD 0)) =
        tally (nbins b) (bin k b) SurvPairs.Obj.weight (sep rat k b) (all first) (all (second.getD first)) := by
  have hlen : (edges b).length = b.edges.length := by simp [edges]
  obtain ⟨out, h1, h2, h3, h4⟩ := SurvPairs.survey_full (modeOf b) (edges b) k.cosmo k.factor M.np M.rank
    (fun p q => rat (sepOf (modeOf b) (SurvPairs.cartesian (distOf k b) p) (SurvPairs.cartesian (distOf k b) q))) 0 k.showProgress M.tree first second
    (by
      intro h
      rcases hc with hc | hc
      · rw [(angular_iff hck).mpr hc] at h; cases h
      · exact hc)
    (by
      intro h
      rw [edges, maxEdge_cast]
      exact_mod_cast hb ((angular_iff hck).mp h))
    (second_pos hck h0) (by rw [hP]; exact hM.tree) hM.cells (by rw [hP]; exact hM.rank)
  refine ⟨out, h1, ?_⟩
  rw [hlen] at h3 h4
  have key : ∀ i < nbins b, ∃ o, out.rows[i]? = some o ∧ o.npairs = tallyN (bin k b) (all first) (all (second.getD first)) i ∧
      o.wnpairs = some (tallyS (bin k b) (fun p q => p.weight * q.weight) (all first) (all (second.getD first)) i) ∧
      o.x = some (if tallyN (bin k b) (all first) (all (second.getD first)) i = 0 then 0 else
        tallyS (bin k b) (sep rat k b) (all first) (all (second.getD first)) i / tallyN (bin k b) (all first) (all (second.getD first)) i) := by
    intro i hi
    obtain ⟨o, e1, e2, e3, e4, e5⟩ := h4 i hi
    replace e2 : o.npairs = tallyN (bin k b) (all first) (all (second.getD first)) i := e2
    refine ⟨o, e1, e2, e3, ?_⟩
    by_cases hz : o.npairs = 0
    · rw [e5 rfl hz, if_pos (by rw [← e2]; exact hz)]
    · rw [e4 (Nat.pos_of_ne_zero hz), if_neg (show ¬ tallyN (bin k b) (all first) (all (second.getD first)) i = 0 by rw [← e2]; exact hz), e2]
      rfl
  have hl : out.rows.length = nbins b := h3
  unfold tally
  refine Prod.ext ?_ ?_
  · apply List.ext_getElem
    · simp [hl]
    · intro i hi hi'
      obtain ⟨o, e1, e2, e3, e4⟩ := key i (by simpa [hl] using hi)
      obtain ⟨hi2, rfl⟩ := List.getElem?_eq_some_iff.mp e1
      simp [e4, val]
  · apply List.ext_getElem
    · simp [hl]
    · intro i hi hi'
      obtain ⟨o, e1, e2, e3, e4⟩ := key i (by simpa [hl] using hi)
      obtain ⟨hi2, rfl⟩ := List.getElem?_eq_some_iff.mp e1
      simp [e2, e3]

/-- Counts cannot be arranged in rows of no bins. -/
theorem pairCount_zero {A B : Type} (n : Nat) (bin : A → B → Option Nat) (w s : A → B → ℚ) (md : Pairs.Mode) (q : ℚ) (sp : Bool) (tree : Pairs.Tree)
    (lay : Pairs.Layout A B) (sm bm : ℚ) (D1 : List (List A)) (D2 : List (List B)) (hP : 0 < D1.length) :
    Pairs.pairCount n bin w s (Pairs.sepColumn md) (some q) (some 0) sp tree lay sm bm D1 D2 = .error .valueError := by
  unfold Pairs.pairCount Pairs.callAll
  obtain ⟨Q, hQ⟩ : ∃ Q, D1.length = Q + 1 := ⟨D1.length - 1, by omega⟩
  rw [hQ, List.range_succ_eq_map, List.map_cons, List.zipIdx_cons, List.mapM_cons]
  obtain ⟨z, hz, -⟩ := Pairs.runRank_rep n bin w s md q (Pairs.secondaries lay sm bm D2 0) sp (Pairs.exchange1 lay D1 0)
  simp only [bind, Except.bind, hz, Option.elim_some]
  simp [Pairs.Res.reshape]

/-- No bins of `mu` are a ValueError. -/
theorem pairs_zero (M : Mach) (P : Nat) (k : Kw) (hM : M.Good P k.factor) (b : Bins) (s : Obj → Obj → ℚ) (h0 : b.mode = "2d" ∧ b.Nmu = some 0)
    (first : Cat) (second : Option Cat) (hP : first.length = P) :
    ∃ e, SurvPairs.surveyPairs (modeOf b) (edges b) k.cosmo k.factor M.np M.rank s
      (Pairs.sepColumn (modeOf b).name) (some 0) k.showProgress M.tree first second = .error e := by
  classical
  have hpos : 0 < P := by
    have h1 := hM.tree.length_eq
    rw [List.length_range] at h1
    rw [← h1]
    have : ∀ t : Pairs.Tree, 0 < t.ranks.length := by
      intro t
      induction t with
      | leaf r => simp [Pairs.Tree.ranks]
      | node l r hl hr => simp [Pairs.Tree.ranks]; omega
    exact this _
  unfold SurvPairs.surveyPairs
  split
  · exact ⟨_, rfl⟩
  have hs : (modeOf b).second = some 0 := by simp [modeOf, h0.1, h0.2, SurvPairs.Mode.second]
  rw [hs]
  refine ⟨.valueError, ?_⟩
  dsimp only
  rw [pairCount_zero _ _ _ _ _ _ _ _ _ _ _ _ _ (by rw [hP]; exact hpos)]
  rfl

/-- The counts of accepted bins in terms of the objects alone. -/
theorem count_direct (rat : ℝ → ℚ) (M : Mach) (P : Nat) (k : Kw) (hM : M.Good P k.factor) (b : Bins) {md : Pairs.Mode}
    (hck : Pairs.checkArgs b.mode b.edges b.Nmu b.pimax = .ok md) (hb : Half b) (first : Cat) (second : Option Cat) (same : Bool) (hP : first.length = P) :
    countSurv rat M k b first second same =
      if b.mode ≠ "angular" ∧ k.cosmo = none then .error .valueError
      else if b.mode = "2d" ∧ b.Nmu = some 0 then .error .valueError
      else .ok (direct rat k b (all first) (second.map all) same) := by
  unfold countSurv
  by_cases h1 : b.mode ≠ "angular" ∧ k.cosmo = none
  · rw [if_pos h1]
    have : (!(modeOf b).isAngular && k.cosmo.isNone) = true := by
      have : ¬ (modeOf b).isAngular = true := fun h => h1.1 ((angular_iff hck).mp h)
      simp [this, h1.2]
    unfold SurvPairs.surveyPairs
    rw [if_pos this]
  rw [if_neg h1]
  by_cases h0 : b.mode = "2d" ∧ b.Nmu = some 0
  · rw [if_pos h0]
    obtain ⟨e, he⟩ := pairs_zero M P k hM b
      (fun p q => rat (sepOf (modeOf b) (SurvPairs.cartesian (distOf k b) p) (SurvPairs.cartesian (distOf k b) q))) h0 first second hP
    rw [he]
  rw [if_neg h0]
  have hc : b.mode = "angular" ∨ k.cosmo.isSome := by
    by_cases ha : b.mode = "angular"
    · exact Or.inl ha
    · right
      cases hk : k.cosmo with
      | none => exact absurd ⟨ha, hk⟩ h1
      | some _ => rfl
  obtain ⟨out, h2, h3⟩ := pairs_eq rat M P k hM b hck hb hc h0 first second hP
  rw [h2]
  simp only [total_eq]
  congr 1
  unfold direct
  have hs : (second.map all).getD (all first) = all (second.getD first) := by cases second <;> rfl
  simp only [hs, ← h3]
  congr 1
  · cases second <;> rfl
  · cases second <;> rfl

/-- Without analytic randoms the results depend on the counts alone. -/
theorem new_congr {e e' : PcfObj.Env} {g : PcfObj.Args} (hs : PcfObj.counterOf g = .survey)
    (hc : ∀ md, Pairs.checkArgs g.bins.mode g.bins.edges g.bins.Nmu g.bins.pimax = .ok md → ∀ i j, e'.count .survey g.bins i j = e.count .survey g.bins i j)
    (h1 : e'.oldNumpy = e.oldNumpy) (h2 : e'.world = e.world) : PcfObj.new e' g = PcfObj.new e g := by
  have hna : ¬ PcfObj.isAnalytic g = true := by
    intro h
    unfold PcfObj.isAnalytic at h
    unfold PcfObj.counterOf at hs
    simp only [Bool.and_eq_true, decide_eq_true_eq] at h
    rw [h.1] at hs
    simp at hs
  have hcd : ∀ i j, PcfObj.counted e' .survey g.bins i j = PcfObj.counted e .survey g.bins i j := by
    intro i j
    unfold PcfObj.counted
    cases hck : Pairs.checkArgs g.bins.mode g.bins.edges g.bins.Nmu g.bins.pimax with
    | error _ => rfl
    | ok md => simp only [hc md hck]
  have hb : PcfObj.runBase e' g = PcfObj.runBase e g := by
    unfold PcfObj.runBase
    rw [if_neg hna, if_neg hna]
    cases g.randoms1 with
    | none => rfl
    | some r1 =>
      simp only
      unfold PcfObj.runLS PcfObj.randomPairs PcfObj.secondPairs
      simp only [hs, hcd]
  have hw : ∀ c, PcfObj.computeWp e' c = PcfObj.computeWp e c := by
    intro c; unfold PcfObj.computeWp; rw [h1, h2]
  unfold PcfObj.new
  rw [hb]
  simp only [hw]

end NBK.SurvTpcf
