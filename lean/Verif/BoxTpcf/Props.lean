import Verif.BoxTpcf.Lemmas

set_option linter.unusedSimpArgs false

/-! C140: the pair counts and the correlation function of particles in a box, on any number of ranks. -/
namespace NBK.BoxTpcf
open NBK

/-- What has been checked once pairs are counted. -/
theorem checks_fine (los : BoxPairs.Los) (periodic : Bool) (arg : Option Pos) (b : Bins) (first second : Cat) (lb : Int × Pos)
    (ha : b.mode ≠ "angular") (h : checks los periodic arg b first second = .ok lb) :
    Fine periodic lb.2 b ∧ (periodic = true → (∀ e ∈ b.edges, e ≤ lb.2.x / 2) ∧ (b.mode = "projected" → b.pimax.getD 0 ≤ lb.2.x / 2)) ∧
      (∃ md, Pairs.checkArgs b.mode b.edges b.Nmu b.pimax = .ok md) ∧ lb.1 ∈ [(0 : Int), 1, 2] ∧
      boxSize first second arg = .ok lb.2 := by
  unfold checks at h
  split at h
  · cases h
  rename_i l hl
  cases hbx : boxSize first second arg with
  | error e => rw [hbx] at h; cases h
  | ok box =>
    rw [hbx] at h
    simp only [Except.bind] at h
    split at h
    · cases h
    rename_i md hck
    by_cases h1 : (periodic && tooLarge box b) = true
    · rw [if_pos h1] at h; cases h
    rw [if_neg h1] at h
    by_cases h2 : l.2 = false
    · rw [if_pos h2] at h; cases h
    rw [if_neg h2] at h
    by_cases h3 : (periodic && !(decide (box.y = box.x) && decide (box.z = box.x))) = true
    · rw [if_pos h3] at h; cases h
    rw [if_neg h3] at h
    obtain rfl := Except.ok.inj h
    obtain ⟨hm, hne⟩ := PcfObj.accepted hck
    obtain ⟨-, -, hpos, -⟩ := (Pairs.checkArgs_iff b.mode b.edges b.Nmu b.pimax).mp ⟨md, hck⟩
    have hmax : ∀ e ∈ b.edges, e ≤ Pairs.maxEdge b.edges := by
      intro e he
      obtain ⟨i, hi, rfl⟩ := List.getElem_of_mem he
      have := (Pairs.le_maxEdge b.edges i).1
      rwa [List.getD_eq_getElem _ _ hi] at this
    have hcube : periodic = true → box.y = box.x ∧ box.z = box.x := by
      intro hp
      rw [hp] at h3
      simpa using h3
    have hside : periodic = true → Pairs.maxEdge b.edges ≤ box.x / 2 ∧ (b.mode = "projected" → b.pimax.getD 0 ≤ box.x / 2) := by
      intro hp
      rw [hp] at h1
      simp only [Bool.true_and, tooLarge, Bool.or_eq_true, Bool.and_eq_true, decide_eq_true_eq, beq_iff_eq, not_or, not_and, not_lt] at h1
      have e : minSide box = box.x := by
        unfold minSide
        rw [(hcube hp).1, (hcube hp).2, min_self, min_self]
      rw [e] at h1
      exact ⟨by linarith [h1.1], fun hm => by linarith [h1.2 hm]⟩
    refine ⟨⟨?_, hpos, hne, fun hp => ⟨?_, hcube hp⟩⟩, fun hp => ⟨fun e he => le_trans (hmax e he) (hside hp).1, (hside hp).2⟩, ⟨md, hck⟩, ?_, rfl⟩
    · rcases hm with h | h | h | h
      · exact .inl h
      · exact .inr (.inl h)
      · exact .inr (.inr h)
      · exact absurd h ha
    · obtain ⟨e, he⟩ := List.exists_mem_of_ne_nil _ hne
      have := hpos e he
      have := hmax e he
      have := (hside hp).1
      show 0 < box.x
      linarith
    · unfold BoxPairs.parseLos at hl
      split at hl
      · split at hl
        · cases hl
        · split at hl
          · rename_i i _ hi
            cases hl
            simp only [List.mem_cons, List.not_mem_nil, or_false] at hi ⊢
            rcases hi with rfl | rfl | rfl <;> simp
          · cases hl
      · dsimp only at hl
        split at hl
        · split at hl
          · rename_i hi; cases hl; exact hi
          · cases hl
        · split at hl
          · rename_i hi; cases hl; exact hi
          · cases hl
      · split at hl
        · rename_i hi; cases hl; exact hi
        · cases hl
      · cases hl
      · cases hl

/-- The counts of a run: the columns are those of all pairs of the two catalogs, however many ranks there are. -/
theorem runBox_eq (root : ℚ → ℚ) (M : Mach) (P : Nat) (hM : M.Good P) (sp : Bool) (los : Int) (periodic : Bool) (box : Pos) (b : Bins)
    (hb : Fine periodic box b) (h0 : ¬ (b.mode = "2d" ∧ b.Nmu = some 0)) (first second : Cat) (hP : first.rows.length = P) :
    ∃ out, runBox root M sp los periodic box b first second = .ok out ∧
      ((out.rows.map fun o => val o.x), out.rows.map fun o => (o.npairs, o.wnpairs.getD 0)) =
        tally (nbins b) (bin0 los periodic box b) Part.w (sep0 root los periodic box b) first.all second.all := by
  have hdiv : ∀ k, bins2 b = some k → 0 < k ∧ k ∣ nbins b := by
    intro k hk
    rcases hb.mode with hm | ⟨hm, n, hn⟩ | ⟨hm, p, hp, hp1⟩
    · rw [(bins2_1d hm).1] at hk; cases hk
    · obtain ⟨e1, e2, -⟩ := bins2_2d hm hn
      rw [e1] at hk; cases hk
      refine ⟨Nat.pos_of_ne_zero fun hz => h0 ⟨hm, by rw [hn, hz]⟩, by rw [e2]; exact Dvd.intro_left _ rfl⟩
    · obtain ⟨e1, e2, -, e4⟩ := bins2_proj hm hp hp1
      rw [e1] at hk; cases hk
      exact ⟨e4, by rw [e2]; exact Dvd.intro_left _ rfl⟩
  have hlen : (wrapped periodic box first).length = P := by simp [wrapped, hP]
  have hw : ∀ c : Cat, ∀ p ∈ (wrapped periodic box c).flatten, p.pos = wrapPos periodic box p.pos := by
    intro c p hp
    rw [wrapped_flatten] at hp
    obtain ⟨q, -, rfl⟩ := List.mem_map.mp hp
    exact wrapPos_wrapPos periodic box q.pos hb.cube
  obtain ⟨out, h1, h2, h3, h4, h5⟩ := Pairs.pairCount_full (nbins b) (bin los periodic box b) (fun p q : Part => p.w * q.w)
    (sep root los periodic box b) (modeOf b) 0 (bins2 b) hdiv sp M.tree
    ⟨fun p => (M.lay box (smoothing2 b)).owner p.pos, fun p => (M.lay box (smoothing2 b)).ghosts p.pos⟩ (smoothing2 b) (maxSide box ^ 2 / 4)
    (wrapped periodic box first) (wrapped periodic box second) (by rw [hlen]; exact hM.tree)
    (fun a _ => by rw [hlen]; exact hM.owner _ _ _)
    (fun a ha c hc hbin => hM.ghosts _ _ _ _ (near_of_bin los periodic box b hb a c hbin ⟨hw first a ha, hw second c hc⟩))
  refine ⟨out, h1, ?_⟩
  rw [wrapped_flatten, wrapped_flatten] at h5
  have key : ∀ k < nbins b, ∃ o, out.rows[k]? = some o ∧ o.npairs = tallyN (bin0 los periodic box b) first.all second.all k ∧
      o.wnpairs = some (tallyS (bin0 los periodic box b) (fun p q => p.w * q.w) first.all second.all k) ∧
      o.x = some (if tallyN (bin0 los periodic box b) first.all second.all k = 0 then 0 else
        tallyS (bin0 los periodic box b) (sep0 root los periodic box b) first.all second.all k / tallyN (bin0 los periodic box b) first.all second.all k) := by
    intro k hk
    obtain ⟨o, e1, e2, e3, e4, e5⟩ := h5 k hk
    simp only [List.map_map, Function.comp_def, List.countP_map] at e2 e3 e4
    replace e2 : o.npairs = tallyN (bin0 los periodic box b) first.all second.all k := e2
    refine ⟨o, e1, e2, e3, ?_⟩
    by_cases hz : o.npairs = 0
    · rw [e5 rfl hz]
      rw [if_pos (show tallyN (bin0 los periodic box b) first.all second.all k = 0 by rw [← e2]; exact hz)]
    · rw [e4 (Nat.pos_of_ne_zero hz)]
      rw [if_neg (show ¬ tallyN (bin0 los periodic box b) first.all second.all k = 0 by rw [← e2]; exact hz)]
      rw [e2]
      rfl
  have hl : out.rows.length = nbins b := h4
  unfold tally
  refine Prod.ext ?_ ?_
  · apply List.ext_getElem
    · simp [hl]
    · intro i hi hi'
      obtain ⟨o, e1, e2, e3, e4⟩ := key i (by simpa [hl] using hi)
      obtain ⟨hi2, rfl⟩ := List.getElem?_eq_some_iff.mp e1
      simp [e4, val]
  · apply List.ext_getElem
    · simp [hl]
    · intro i hi hi'
      obtain ⟨o, e1, e2, e3, e4⟩ := key i (by simpa [hl] using hi)
      obtain ⟨hi2, rfl⟩ := List.getElem?_eq_some_iff.mp e1
      simp [e2, e3]

/-- No bins of `mu` are a ValueError. -/
theorem runBox_zero (root : ℚ → ℚ) (M : Mach) (P : Nat) (hM : M.Good P) (sp : Bool) (los : Int) (periodic : Bool) (box : Pos) (b : Bins)
    (h0 : b.mode = "2d" ∧ b.Nmu = some 0) (first second : Cat) (hP : first.rows.length = P) :
    ∃ e, runBox root M sp los periodic box b first second = .error e := by
  have hpos : 0 < P := by
    have h1 := hM.tree.length_eq
    rw [List.length_range] at h1
    rw [← h1]
    cases M.tree with
    | leaf r => simp [Pairs.Tree.ranks]
    | node l r =>
      have : ∀ t : Pairs.Tree, 0 < t.ranks.length := by
        intro t
        induction t with
        | leaf r => simp [Pairs.Tree.ranks]
        | node l r hl hr => simp [Pairs.Tree.ranks]; omega
      exact this _
  obtain ⟨e1, e2, -⟩ := bins2_2d h0.1 h0.2
  unfold runBox
  simp only
  unfold Pairs.pairCount Pairs.callAll
  rw [e1]
  have hl : (wrapped periodic box first).length = P := by simp [wrapped, hP]
  rw [hl]
  obtain ⟨Q, rfl⟩ : ∃ Q, P = Q + 1 := ⟨P - 1, by omega⟩
  rw [List.range_succ_eq_map, List.map_cons, List.zipIdx_cons, List.mapM_cons]
  obtain ⟨z, hz, -⟩ := Pairs.runRank_rep (nbins b) (bin los periodic box b) (fun p q : Part => p.w * q.w) (sep root los periodic box b) (modeOf b) 0
    (Pairs.secondaries ⟨fun p : Part => (M.lay box (smoothing2 b)).owner p.pos, fun p => (M.lay box (smoothing2 b)).ghosts p.pos⟩ (smoothing2 b)
      (maxSide box ^ 2 / 4) (wrapped periodic box second) 0) sp
    (Pairs.exchange1 ⟨fun p : Part => (M.lay box (smoothing2 b)).owner p.pos, fun p : Part => (M.lay box (smoothing2 b)).ghosts p.pos⟩
      (wrapped periodic box first) 0)
  refine ⟨.valueError, ?_⟩
  simp only [bind, Except.bind, hz, Option.elim_some]
  simp [Pairs.Res.reshape]

/-- The normalisation of two catalogs. -/
def total (X : List Part) (Y : Option (List Part)) : ℚ :=
  Y.elim (1 / 2 * ((X.map Part.w).sum ^ 2 - (X.map fun p => p.w ^ 2).sum)) fun Y => 1 / 2 * (X.map Part.w).sum * (Y.map Part.w).sum

theorem weights_flatten (c : Cat) : (weights c).flatten = c.all.map Part.w := by
  unfold weights Cat.all
  rw [List.map_flatten]

theorem total_eq (first : Cat) (second : Option Cat) (same : Bool) :
    Pairs.totalWnpairs (weights first) (if same then .same else second.elim .none fun c => .other (weights c)) =
      total first.all (if same then none else second.map Cat.all) := by
  have h1 := Pairs.allsum_sum (weights first)
  rw [weights_flatten] at h1
  have h2 := Pairs.allsum_sq (weights first)
  rw [weights_flatten, List.map_map] at h2
  cases same with
  | true =>
    simp only [if_true, Pairs.totalWnpairs, total, Option.elim_none]
    rw [h1, h2]; rfl
  | false =>
    cases second with
    | none =>
      simp only [Bool.false_eq_true, if_false, Option.elim_none, Option.map_none, Pairs.totalWnpairs, total]
      rw [h1, h2]; rfl
    | some c =>
      have h3 := Pairs.allsum_sum (weights c)
      rw [weights_flatten] at h3
      simp only [Bool.false_eq_true, if_false, Option.elim_some, Option.map_some, Pairs.totalWnpairs, total]
      rw [h1, h3]

/-- The result of a pair count in terms of the particles alone. -/
def direct (root : ℚ → ℚ) (los : Int) (periodic : Bool) (box : Pos) (b : Bins) (X : List Part) (Y : Option (List Part)) (same : Bool) : PcfObj.Count :=
  let t := tally (nbins b) (bin0 los periodic box b) Part.w (sep0 root los periodic box b) X (Y.getD X)
  ⟨total X (if same then none else Y), Y.isSome && !same, t.1, t.2⟩

/-- C140: a pair count is that of all pairs of the particles, on any number of ranks, for any distribution of the particles over them, any
decomposition that keeps the contract of `GridND`, any order of the reduction and any chunks. -/
theorem count_eq (root : ℚ → ℚ) (M : Mach) (P : Nat) (hM : M.Good P) (sp : Bool) (los : BoxPairs.Los) (periodic : Bool) (arg : Option Pos) (b : Bins)
    (ha : b.mode ≠ "angular") (first : Cat) (second : Option Cat) (same : Bool) (hP : first.rows.length = P) :
    countBox root M sp los periodic arg b first second same =
      (checks los periodic arg b first (second.getD first)).bind fun lb =>
        if b.mode = "2d" ∧ b.Nmu = some 0 then .error .valueError
        else .ok (direct root lb.1 periodic lb.2 b first.all (second.map Cat.all) same) := by
  unfold countBox
  cases hch : checks los periodic arg b first (second.getD first) with
  | error e => rfl
  | ok lb =>
    obtain ⟨hf, -⟩ := checks_fine los periodic arg b first (second.getD first) lb ha hch
    simp only [Except.bind]
    by_cases h0 : b.mode = "2d" ∧ b.Nmu = some 0
    · obtain ⟨e, he⟩ := runBox_zero root M P hM sp lb.1 periodic lb.2 b h0 first (second.getD first) hP
      rw [if_pos h0, he]
    · obtain ⟨out, h1, h2⟩ := runBox_eq root M P hM sp lb.1 periodic lb.2 b hf h0 first (second.getD first) hP
      rw [if_neg h0, h1]
      simp only [total_eq]
      congr 1
      unfold direct
      have hs : (second.map Cat.all).getD first.all = (second.getD first).all := by cases second <;> rfl
      simp only [hs, ← h2]
      congr 1
      cases second <;> rfl

/-! ### The correlation function -/

/-- Two sets of catalogs hold the same particles, those of the second moved by `φ`, on communicators of `P` and `P'` ranks. -/
structure Same (φ : Part → Part) (P P' : Nat) (C C' : Nat → Cat) : Prop where
  ranks : ∀ i, (C i).rows.length = P
  ranks' : ∀ i, (C' i).rows.length = P'
  box : ∀ i, (C' i).box = (C i).box
  rows : ∀ i, (C' i).all.Perm ((C i).all.map φ)
  weight : ∀ p, (φ p).w = p.w

theorem checks_same {φ : Part → Part} {P P' : Nat} {C C' : Nat → Cat} (h : Same φ P P' C C') (los : BoxPairs.Los) (periodic : Bool) (arg : Option Pos)
    (b : Bins) (i j : Nat) : checks los periodic arg b (C' i) (C' j) = checks los periodic arg b (C i) (C j) := by
  unfold checks boxSize
  rw [h.box, h.box]

theorem total_perm {X X' : List Part} {Y Y' : Option (List Part)} {φ : Part → Part} (hw : ∀ p, (φ p).w = p.w) (hX : X'.Perm (X.map φ))
    (hY : ∀ y y', Y = some y → Y' = some y' → y'.Perm (y.map φ)) (hs : Y'.isSome = Y.isSome) : total X' Y' = total X Y := by
  have e : ∀ (f : ℚ → ℚ) (l l' : List Part), l'.Perm (l.map φ) → (l'.map fun p => f p.w).sum = (l.map fun p => f p.w).sum := by
    intro f l l' hl
    rw [(hl.map _).sum_eq, List.map_map]
    congr 1
    apply List.map_congr_left
    intro p _
    simp [hw]
  unfold total
  cases Y with
  | none =>
    cases Y' with
    | some _ => cases hs
    | none =>
      simp only [Option.elim_none]
      rw [show X'.map Part.w = X'.map fun p => id p.w from rfl, e id X X' hX, e (fun x => x ^ 2) X X' hX]; rfl
  | some y =>
    cases Y' with
    | none => cases hs
    | some y' =>
      simp only [Option.elim_some]
      have h1 := e id X X' hX
      have h2 := e id y y' (hY y y' rfl rfl)
      simp only [id] at h1 h2
      rw [show X'.map Part.w = X'.map fun p => p.w from rfl, show y'.map Part.w = y'.map fun p => p.w from rfl, h1, h2]

/-- The count is the same if the bins and separations are. -/
theorem direct_same {φ : Part → Part} (root : ℚ → ℚ) (los los' : Int) (periodic : Bool) (box box' : Pos) (b : Bins) (X X' : List Part)
    (Y Y' : Option (List Part)) (same : Bool) (hw : ∀ p, (φ p).w = p.w) (hX : X'.Perm (X.map φ))
    (hY : ∀ y y', Y = some y → Y' = some y' → y'.Perm (y.map φ)) (hs : Y'.isSome = Y.isSome)
    (hbin : ∀ p q, bin0 los' periodic box' b (φ p) (φ q) = bin0 los periodic box b p q)
    (hsep : ∀ p q, sep0 root los' periodic box' b (φ p) (φ q) = sep0 root los periodic box b p q) :
    direct root los' periodic box' b X' Y' same = direct root los periodic box b X Y same := by
  unfold direct
  have hg : (Y'.getD X').Perm ((Y.getD X).map φ) := by
    cases Y with
    | none =>
      cases Y' with
      | none => exact hX
      | some _ => cases hs
    | some y =>
      cases Y' with
      | none => cases hs
      | some y' => exact hY y y' rfl rfl
  have ht : tally (nbins b) (bin0 los' periodic box' b) Part.w (sep0 root los' periodic box' b) X' (Y'.getD X') =
      tally (nbins b) (bin0 los periodic box b) Part.w (sep0 root los periodic box b) X (Y.getD X) :=
    tally_congr (nbins b) hX hg (fun p _ q _ => hbin p q) hw (fun p _ q _ => hsep p q)
  have htot : total X' (if same then none else Y') = total X (if same then none else Y) := by
    cases same with
    | true => exact total_perm hw hX (fun _ _ h => by cases h) rfl
    | false => exact total_perm hw hX hY hs
  simp only [ht, htot, hs]

theorem csize_eq (c : Cat) : (c.rows.map List.length).sum = c.all.length := by
  unfold Cat.all
  rw [List.length_flatten]

/-- The surroundings are the same if the catalogs hold the same particles, up to a motion that leaves bins and separations. -/
theorem env_same_in {φ : Part → Part} {P P' : Nat} {C C' : Nat → Cat} (h : Same φ P P' C C') (E : PcfObj.Env) (root : ℚ → ℚ)
    (mach mach' : Nat → Option Nat → Mach) (hm : ∀ i j, (mach i j).Good P) (hm' : ∀ i j, (mach' i j).Good P') (los : BoxPairs.Los) (sp sp' : Bool)
    (g : PcfObj.Args)
    (hbin : ∀ (l : Int) (per : Bool) (box : Pos) (b : Bins), per = (PcfObj.periodicOf g).getD false →
      (∃ i j arg, boxSize (C i) (C j) arg = .ok box) → (per = true → 0 < box.x ∧ box.y = box.x ∧ box.z = box.x) →
      ∀ p q, bin0 l per box b (φ p) (φ q) = bin0 l per box b p q ∧ sep0 root l per box b (φ p) (φ q) = sep0 root l per box b p q) :
    envOf E root mach' ⟨los, sp'⟩ C' g = envOf E root mach ⟨los, sp⟩ C g := by
  unfold envOf
  congr 1
  · funext c b i j
    by_cases hc : c = .box ∧ b.mode ≠ "angular"
    · rw [if_pos hc, if_pos hc]
      congr 1
      funext box
      rw [count_eq root (mach' i j) P' (hm' i j) sp' los _ box b hc.2 (C' i) (j.map C') _ (h.ranks' i),
        count_eq root (mach i j) P (hm i j) sp los _ box b hc.2 (C i) (j.map C) _ (h.ranks i)]
      have e1 : (j.map C').getD (C' i) = C' (j.getD i) := by cases j <;> rfl
      have e2 : (j.map C).getD (C i) = C (j.getD i) := by cases j <;> rfl
      rw [e1, e2, checks_same h]
      cases hch : checks los ((PcfObj.periodicOf g).getD false) box b (C i) (C (j.getD i)) with
      | error e => rfl
      | ok lb =>
        obtain ⟨hf, -, -, -, hbs⟩ := checks_fine los _ box b _ _ lb hc.2 hch
        simp only [Except.bind]
        split
        · rfl
        · congr 1
          refine direct_same root lb.1 lb.1 _ lb.2 lb.2 b (C i).all (C' i).all _ _ _ h.weight (h.rows i) ?_ ?_ ?_ ?_
          · intro y y' hy hy'
            cases j with
            | none => cases hy
            | some j =>
              cases hy; cases hy'
              exact h.rows j
          · cases j <;> rfl
          · intro p q; exact (hbin lb.1 _ lb.2 b rfl ⟨_, _, _, hbs⟩ hf.cube p q).1
          · intro p q; exact (hbin lb.1 _ lb.2 b rfl ⟨_, _, _, hbs⟩ hf.cube p q).2
    · rw [if_neg hc, if_neg hc]
  · funext i
    rw [csize_eq, csize_eq, (h.rows i).length_eq, List.length_map]
  · funext i
    rw [h.box]

theorem env_same {φ : Part → Part} {P P' : Nat} {C C' : Nat → Cat} (h : Same φ P P' C C') (E : PcfObj.Env) (root : ℚ → ℚ)
    (mach mach' : Nat → Option Nat → Mach) (hm : ∀ i j, (mach i j).Good P) (hm' : ∀ i j, (mach' i j).Good P') (los : BoxPairs.Los) (sp sp' : Bool)
    (g : PcfObj.Args)
    (hbin : ∀ (l : Int) (per : Bool) (box : Pos) (b : Bins), (per = true → 0 < box.x ∧ box.y = box.x ∧ box.z = box.x) →
      ∀ p q, bin0 l per box b (φ p) (φ q) = bin0 l per box b p q ∧ sep0 root l per box b (φ p) (φ q) = sep0 root l per box b p q) :
    envOf E root mach' ⟨los, sp'⟩ C' g = envOf E root mach ⟨los, sp⟩ C g :=
  env_same_in h E root mach mach' hm hm' los sp sp' g fun l per box b _ _ => hbin l per box b

/-- C140: the correlation function - all its counts, its bins and their mean separations, `corr`, `wp`, or the error - is the same on any number of
ranks, for any distribution of the same particles over them, any decomposition, order of reduction and chunks. -/
theorem tpcf_ranks {P P' : Nat} {C C' : Nat → Cat} (h : Same id P P' C C') (E : PcfObj.Env) (root : ℚ → ℚ)
    (mach mach' : Nat → Option Nat → Mach) (hm : ∀ i j, (mach i j).Good P) (hm' : ∀ i j, (mach' i j).Good P') (los : BoxPairs.Los) (sp sp' : Bool)
    (g : PcfObj.Args) : tpcf E root mach' ⟨los, sp'⟩ C' g = tpcf E root mach ⟨los, sp⟩ C g := by
  unfold tpcf
  rw [env_same h E root mach mach' hm hm' los sp sp' g (fun _ _ _ _ _ _ _ => ⟨rfl, rfl⟩)]

/-- All positions moved by a vector. -/
def move (t : Pos) (p : Part) : Part := { p with pos := ⟨p.pos.x + t.x, p.pos.y + t.y, p.pos.z + t.z⟩ }

theorem order_move (l : Int) (t p : Pos) : order l ⟨p.x + t.x, p.y + t.y, p.z + t.z⟩ =
    ⟨(order l p).x + (order l t).x, (order l p).y + (order l t).y, (order l p).z + (order l t).z⟩ := by
  unfold order
  split
  · rfl
  · split <;> rfl

/-- C140: moving all catalogs by the same vector changes nothing, with periodic boundaries (the positions are taken into the box) or without. -/
theorem tpcf_moved {P P' : Nat} {C C' : Nat → Cat} (t : Pos) (h : Same (move t) P P' C C') (E : PcfObj.Env) (root : ℚ → ℚ)
    (mach mach' : Nat → Option Nat → Mach) (hm : ∀ i j, (mach i j).Good P) (hm' : ∀ i j, (mach' i j).Good P') (los : BoxPairs.Los) (sp sp' : Bool)
    (g : PcfObj.Args) : tpcf E root mach' ⟨los, sp'⟩ C' g = tpcf E root mach ⟨los, sp⟩ C g := by
  unfold tpcf
  rw [env_same h E root mach mach' hm hm' los sp sp' g]
  intro l per box b hbox p q
  have hc := fun h : per = true => (hbox h).2
  have hL := fun h : per = true => (hbox h).1
  rw [bin0_eq l per box b hc, bin0_eq l per box b hc, sep0_eq root l per box b hc, sep0_eq root l per box b hc]
  have e : ∀ r : Part, order l (move t r).pos = ⟨(order l r.pos).x + (order l t).x, (order l r.pos).y + (order l t).y, (order l r.pos).z + (order l t).z⟩ :=
    fun r => order_move l t r.pos
  rw [e, e]
  simp only [diff2_shift per _ _ _ _ hL, and_self]

/-- All positions reflected. -/
def reflect (p : Part) : Part := { p with pos := ⟨-p.pos.x, -p.pos.y, -p.pos.z⟩ }

/-- C140: nor does a reflection. -/
theorem tpcf_reflected {P P' : Nat} {C C' : Nat → Cat} (h : Same reflect P P' C C') (E : PcfObj.Env) (root : ℚ → ℚ)
    (mach mach' : Nat → Option Nat → Mach) (hm : ∀ i j, (mach i j).Good P) (hm' : ∀ i j, (mach' i j).Good P') (los : BoxPairs.Los) (sp sp' : Bool)
    (g : PcfObj.Args) : tpcf E root mach' ⟨los, sp'⟩ C' g = tpcf E root mach ⟨los, sp⟩ C g := by
  unfold tpcf
  rw [env_same h E root mach mach' hm hm' los sp sp' g]
  intro l per box b hbox p q
  have hc := fun h : per = true => (hbox h).2
  have hL := fun h : per = true => (hbox h).1
  rw [bin0_eq l per box b hc, bin0_eq l per box b hc, sep0_eq root l per box b hc, sep0_eq root l per box b hc]
  have e : ∀ r : Part, order l (reflect r).pos = ⟨-(order l r.pos).x, -(order l r.pos).y, -(order l r.pos).z⟩ := by
    intro r
    unfold order reflect
    split
    · rfl
    · split <;> rfl
  rw [e, e]
  simp only [diff2_neg per _ _ _ hL, and_self]

/-- A particle taken into the box. -/
def intoBox (box : Pos) (p : Part) : Part := { p with pos := wrapPos true box p.pos }

/-- A catalog all of whose particles are taken into the box. -/
def Cat.intoBox (c : Cat) (box : Pos) : Cat := { c with rows := c.rows.map fun l => l.map (BoxTpcf.intoBox box) }

theorem intoBox_all (c : Cat) (box : Pos) : (c.intoBox box).all = c.all.map (BoxTpcf.intoBox box) := by
  unfold Cat.all Cat.intoBox
  rw [List.map_flatten]

theorem tpcf_intoBox {P P' : Nat} (C : Nat → Cat) (hP : ∀ i, (C i).rows.length = P) (box : Pos) (hbox : ∀ i, (C i).box = some box) (C' : Nat → Cat)
    (hP' : ∀ i, (C' i).rows.length = P') (hbox' : ∀ i, (C' i).box = some box) (hall : ∀ i, (C' i).all.Perm ((C i).all.map (intoBox box))) (E : PcfObj.Env) (root : ℚ → ℚ)
    (mach mach' : Nat → Option Nat → Mach) (hm : ∀ i j, (mach i j).Good P) (hm' : ∀ i j, (mach' i j).Good P') (los : BoxPairs.Los) (sp sp' : Bool)
    (g : PcfObj.Args) (hper : PcfObj.periodicOf g = some true) : tpcf E root mach' ⟨los, sp'⟩ C' g = tpcf E root mach ⟨los, sp⟩ C g := by
  have h : Same (intoBox box) P P' C C' := ⟨hP, hP', fun i => by rw [hbox, hbox'], hall, fun _ => rfl⟩
  unfold tpcf
  rw [env_same_in h E root mach mach' hm hm' los sp sp' g]
  intro l per bx b hp hbs hcube p q
  obtain ⟨i, j, arg, hbs⟩ := hbs
  have hbx : bx = box := by
    unfold boxSize at hbs
    rw [hbox, hbox] at hbs
    simp only at hbs
    split at hbs
    · cases hbs
    · simp only [ne_eq, not_true_eq_false, if_false] at hbs
      split at hbs
      · cases hbs
      · rename_i hne
        rw [not_not] at hne
        cases hbs
        exact hne.symm
  rw [hper] at hp
  have hpt : per = true := by simpa using hp
  have hc := hcube hpt
  have e : ∀ r : Part, wrapPos per bx (intoBox box r).pos = wrapPos per bx r.pos := by
    intro r
    unfold intoBox
    rw [hpt, ← hbx]
    exact (wrapPos_wrapPos true bx r.pos fun _ => hc).symm
  unfold bin0 sep0
  rw [e, e]
  exact ⟨rfl, rfl⟩

/-- C140: with periodic boundaries it does not matter in which of the boxes a particle is given: catalogs whose particles agree once they are taken into
the box have the same correlation function. -/
theorem tpcf_images {P P' : Nat} (C C' : Nat → Cat) (hP : ∀ i, (C i).rows.length = P) (hP' : ∀ i, (C' i).rows.length = P') (box : Pos)
    (hbox : ∀ i, (C i).box = some box) (hbox' : ∀ i, (C' i).box = some box)
    (hall : ∀ i, ((C' i).all.map (intoBox box)).Perm ((C i).all.map (intoBox box))) (E : PcfObj.Env) (root : ℚ → ℚ)
    (mach mach' : Nat → Option Nat → Mach) (hm : ∀ i j, (mach i j).Good P) (hm' : ∀ i j, (mach' i j).Good P') (los : BoxPairs.Los) (sp sp' : Bool)
    (g : PcfObj.Args) (hper : PcfObj.periodicOf g = some true) : tpcf E root mach' ⟨los, sp'⟩ C' g = tpcf E root mach ⟨los, sp⟩ C g := by
  have h1 := tpcf_intoBox C' hP' box hbox' (fun i => (C' i).intoBox box) (fun i => by simp [Cat.intoBox, hP']) (fun i => hbox' i)
    (fun i => by rw [intoBox_all]) E root mach' mach' hm' hm' los sp' sp' g hper
  have h2 := tpcf_intoBox C hP box hbox (fun i => (C' i).intoBox box) (fun i => by simp [Cat.intoBox, hP']) (fun i => hbox' i)
    (fun i => by rw [intoBox_all]; exact hall i) E root mach mach' hm hm' los sp sp' g hper
  rw [← h1, h2]

end NBK.BoxTpcf
