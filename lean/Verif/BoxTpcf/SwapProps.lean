import Verif.BoxTpcf.ScaleProps

set_option linter.unusedSimpArgs false

/-! C140: exchanged catalogs. -/
namespace NBK.BoxTpcf
open NBK PcfObj

theorem boxSize_comm {c d : Cat} (h : c.box = d.box) (arg : Option Pos) : boxSize d c arg = boxSize c d arg := by
  unfold boxSize
  rw [h]

theorem checks_comm {c d : Cat} (h : c.box = d.box) (los : BoxPairs.Los) (periodic : Bool) (arg : Option Pos) (b : PcfObj.Bins) :
    checks los periodic arg b d c = checks los periodic arg b c d := by
  unfold checks
  rw [boxSize_comm h]

theorem bin0_comm (los : Int) (periodic : Bool) (box : Pos) (b : PcfObj.Bins) (hc : periodic = true → box.y = box.x ∧ box.z = box.x) (p q : Part) :
    bin0 los periodic box b p q = bin0 los periodic box b q p := by
  rw [bin0_eq los periodic box b hc, bin0_eq los periodic box b hc, diff2_comm, diff2_comm _ _ (order los p.pos).y, diff2_comm _ _ (order los p.pos).z]

theorem sep0_comm (root : ℚ → ℚ) (los : Int) (periodic : Bool) (box : Pos) (b : PcfObj.Bins) (hc : periodic = true → box.y = box.x ∧ box.z = box.x)
    (p q : Part) : sep0 root los periodic box b p q = sep0 root los periodic box b q p := by
  rw [sep0_eq root los periodic box b hc, sep0_eq root los periodic box b hc, diff2_comm, diff2_comm _ _ (order los p.pos).y,
    diff2_comm _ _ (order los p.pos).z]

/-- C140: a pair count is symmetric in the two catalogs: counts, weighted counts, mean separations and normalisation, or the error. -/
theorem count_comm (root : ℚ → ℚ) (M M' : Mach) (P : Nat) (hM : M.Good P) (hM' : M'.Good P) (sp sp' : Bool) (los : BoxPairs.Los) (periodic : Bool)
    (arg : Option Pos) (b : PcfObj.Bins) (ha : b.mode ≠ "angular") (c d : Cat) (hb : c.box = d.box) (hc : c.rows.length = P) (hd : d.rows.length = P) :
    countBox root M' sp' los periodic arg b d (some c) false = countBox root M sp los periodic arg b c (some d) false := by
  rw [count_eq root M' P hM' sp' los periodic arg b ha d (some c) false hd, count_eq root M P hM sp los periodic arg b ha c (some d) false hc]
  simp only [Option.getD_some]
  rw [checks_comm hb]
  cases hch : checks los periodic arg b c d with
  | error e => rfl
  | ok lb =>
    obtain ⟨hf, -⟩ := checks_fine los periodic arg b c d lb ha hch
    have hcube := fun h : periodic = true => (hf.cube h).2
    simp only [Except.bind]
    split
    · rfl
    · congr 1
      unfold direct
      simp only [Option.map_some, Option.getD_some, Bool.false_eq_true, if_false, Option.isSome_some, Bool.not_false, Bool.and_self]
      have hN := tallyN_swap (bin0_comm lb.1 periodic lb.2 b hcube) d.all c.all
      have hS := tallyS_swap (bin0_comm lb.1 periodic lb.2 b hcube) (sep0_comm root lb.1 periodic lb.2 b hcube) d.all c.all
      have hW := tallyS_swap (bin0_comm lb.1 periodic lb.2 b hcube) (g := fun p q : Part => p.w * q.w) (fun p q => mul_comm _ _) d.all c.all
      unfold tally
      simp only [hN, hS, hW]
      congr 1
      unfold total
      simp only [Option.elim_some]
      ring

/-- The counts in the surroundings are symmetric. -/
theorem env_comm {P : Nat} (C : Nat → Cat) (hP : ∀ i, (C i).rows.length = P) (E : Env) (root : ℚ → ℚ) (mach : Nat → Option Nat → Mach)
    (hm : ∀ i j, (mach i j).Good P) (kw : Kw) (g : Args) (b : PcfObj.Bins) (ha : b.mode ≠ "angular") (i j : Nat) (hb : (C i).box = (C j).box) :
    (envOf E root mach kw C g).count .box b j (some i) = (envOf E root mach kw C g).count .box b i (some j) := by
  by_cases hij : i = j
  · rw [hij]
  unfold envOf
  simp only [ha, ne_eq, not_false_eq_true, and_self, if_true]
  congr 1
  funext box
  have e1 : decide (some i = some j) = false := by simpa using hij
  have e2 : decide (some j = some i) = false := by simpa using fun h => hij h.symm
  rw [e1, e2]
  exact count_comm root (mach i (some j)) (mach j (some i)) P (hm _ _) (hm _ _) _ _ kw.los _ box b ha (C i) (C j) hb (hP i) (hP j)

theorem env_cross {P : Nat} (C : Nat → Cat) (hP : ∀ i, (C i).rows.length = P) (E : Env) (root : ℚ → ℚ) (mach : Nat → Option Nat → Mach)
    (hm : ∀ i j, (mach i j).Good P) (kw : Kw) (g : Args) (b : PcfObj.Bins) (ha : b.mode ≠ "angular") (i j : Nat) (hij : i ≠ j) (x : Count)
    (hx : (envOf E root mach kw C g).count .box b i (some j) = .ok x) : x.isCross = true := by
  unfold envOf at hx
  simp only [ha, ne_eq, not_false_eq_true, and_self, if_true] at hx
  cases hbx : boxArg g.box with
  | error e => rw [hbx] at hx; cases hx
  | ok box =>
    rw [hbx] at hx
    simp only [Except.bind] at hx
    rw [count_eq root (mach i (some j)) P (hm _ _) _ _ _ box b ha (C i) _ _ (hP i)] at hx
    cases hch : checks kw.los ((periodicOf g).getD false) box b (C i) ((Option.map C (some j)).getD (C i)) with
    | error e => rw [hch] at hx; cases hx
    | ok lb =>
      rw [hch] at hx
      simp only [Except.bind] at hx
      split at hx
      · cases hx
      · cases hx
        have : decide (some j = some i) = false := by simpa using fun h => hij h.symm
        simp [direct]
        exact fun h => hij h.symm

/-- C140: the correlation function of two catalogs in a periodic box does not change if they are exchanged, nor do its counts. -/
theorem natural_swapped {P : Nat} (C : Nat → Cat) (hP : ∀ i, (C i).rows.length = P) (E : Env) (root : ℚ → ℚ) (mach : Nat → Option Nat → Mach)
    (hm : ∀ i j, (mach i j).Good P) (kw : Kw) (g : Args) (hs : g.kind = .sim) (ha : g.bins.mode ≠ "angular") (hper : g.periodic = true)
    (hr : g.randoms1 = none) (d : Nat) (hd : g.data2 = some d) (hb : (C g.data1).box = (C d).box) :
    tpcf E root mach kw C { g with data1 := d, data2 := some g.data1 } = tpcf E root mach kw C g := by
  by_cases hij : g.data1 = d
  · have : ({ g with data1 := d, data2 := some g.data1 } : Args) = g := by
      cases g
      simp only at hij hd ⊢
      rw [hij, hd]
    rw [this]
  have hct : ∀ g : Args, g.kind = .sim → counterOf g = .box := fun g hs => by simp [counterOf, periodicOf, hs]
  have he : envOf E root mach kw C { g with data1 := d, data2 := some g.data1 } = envOf E root mach kw C g := rfl
  unfold tpcf
  rw [he]
  obtain ⟨e, hee⟩ : ∃ e, e = envOf E root mach kw C g := ⟨_, rfl⟩
  have hsym := env_comm C hP E root mach hm kw g g.bins ha g.data1 d hb
  have hcross := env_cross C hP E root mach hm kw g g.bins ha g.data1 d hij
  have hbox : e.boxOf d = e.boxOf g.data1 := by rw [hee]; simp only [envOf, hb]
  rw [← hee] at hsym hcross ⊢
  have hbase : runBase e { g with data1 := d, data2 := some g.data1 } = runBase e g := by
    have h1 : ∀ g : Args, g.kind = .sim → g.periodic = true → g.randoms1 = none → isAnalytic g = true := fun g h1 h2 h3 => by
      simp [isAnalytic, periodicOf, h1, h2, h3]
    unfold runBase
    rw [if_pos (h1 g hs hper hr), if_pos (h1 { g with data1 := d, data2 := some g.data1 } hs hper hr)]
    unfold runNatural
    have hn1 : naturalData e g = .ok (g.data1, some d) := by simp [naturalData, ha, hd]
    have hn2 : naturalData e { g with data1 := d, data2 := some g.data1 } = .ok (d, some g.data1) := by simp [naturalData, ha]
    rw [hn1, hn2]
    simp only [Except.bind, hct g hs, hct { g with data1 := d, data2 := some g.data1 } hs]
    have hc : counted e .box g.bins d (some g.data1) = counted e .box g.bins g.data1 (some d) := by
      unfold counted
      rw [hsym]
    rw [hc, hbox]
    cases hcc : counted e .box g.bins g.data1 (some d) with
    | error er => rfl
    | ok dd =>
      have hx : dd.1.isCross = true := by
        obtain ⟨_, _, _, _, _, k4, -⟩ := counted_std hcc
        exact hcross _ k4
      simp only [hx, if_true, Option.map_some]
      have han : ∀ ff : List ℚ, Estim.analytic ff (e.csize d) (some (e.csize g.data1 : ℚ)) = Estim.analytic ff (e.csize g.data1) (some (e.csize d : ℚ)) := by
        intro ff
        unfold Estim.analytic
        simp only [Option.elim_some]
        rw [mul_comm (e.csize d : ℚ)]
      have hna : ∀ ff : List ℚ, Estim.natural ff (e.csize d) (some (e.csize g.data1 : ℚ)) dd.1.pc = Estim.natural ff (e.csize g.data1) (some (e.csize d : ℚ)) dd.1.pc := by
        intro ff
        unfold Estim.natural
        rw [han]
      rw [han, hna]
  unfold new
  rw [hbase]

theorem lsBin_comm (tDD tDR tRD tRR DD DR RD : ℚ) (RR : Nat × ℚ) : Estim.lsBin tDD tRD tDR tRR DD RD DR RR = Estim.lsBin tDD tDR tRD tRR DD DR RD RR := by
  unfold Estim.lsBin
  split
  · cases Estim.fdiv tRR tDD with
    | none => rfl
    | some a =>
      cases Estim.fdiv tRR tDR with
      | none => cases Estim.fdiv tRR tRD <;> rfl
      | some c =>
        cases Estim.fdiv tRR tRD with
        | none => rfl
        | some d =>
          simp only [Option.bind_eq_bind, Option.bind_some]
          rw [show a * DD - d * RD - c * DR = a * DD - c * DR - d * RD by ring]
  · rfl

theorem ls_rows_comm (tDD tDR tRD tRR : ℚ) (a b c d : List (Nat × ℚ)) :
    ((a.zip (c.zip (b.zip d))).map fun p => Estim.lsBin tDD tRD tDR tRR p.1.2 p.2.1.2 p.2.2.1.2 p.2.2.2) =
    (a.zip (b.zip (c.zip d))).map fun p => Estim.lsBin tDD tDR tRD tRR p.1.2 p.2.1.2 p.2.2.1.2 p.2.2.2 := by
  apply List.ext_getElem
  · simp only [List.length_map, List.length_zip]; omega
  · intro i h1 h2
    simp only [List.getElem_map, List.getElem_zip]
    exact lsBin_comm _ _ _ _ _ _ _ _

/-- Surroundings in which the counts of the two data and of the two randoms are symmetric give the same correlation function for exchanged samples. -/
theorem ls_swapped_env (e : Env) (g : Args) (d r1 r2 : Nat) (hd : g.data2 = some d) (h1 : g.randoms1 = some r1) (h2 : g.randoms2 = some r2)
    (hR : g.R1R2 = none) (hs1 : e.count (counterOf g) g.bins d (some g.data1) = e.count (counterOf g) g.bins g.data1 (some d))
    (hs2 : e.count (counterOf g) g.bins r2 (some r1) = e.count (counterOf g) g.bins r1 (some r2)) (o : Tpcf) (ho : new e g = .ok o) :
    ∃ o', new e { g with data1 := d, data2 := some g.data1, randoms1 := some r2, randoms2 := some r1 } = .ok o' ∧
      o'.corr = o.corr ∧ o'.wp = o.wp ∧ o'.D1D2 = o.D1D2 ∧ o'.R1R2 = o.R1R2 ∧ o'.D1R2 = o.D2R1 ∧ o'.D2R1 = o.D1R2 := by
  have hct : counterOf { g with data1 := d, data2 := some g.data1, randoms1 := some r2, randoms2 := some r1 } = counterOf g := rfl
  have key : ∀ q, runBase e g = .ok q → ∃ q', runBase e { g with data1 := d, data2 := some g.data1, randoms1 := some r2, randoms2 := some r1 } = .ok q' ∧
      q'.corr = q.corr ∧ q'.wp = q.wp ∧ q'.D1D2 = q.D1D2 ∧ q'.R1R2 = q.R1R2 ∧ q'.D1R2 = q.D2R1 ∧ q'.D2R1 = q.D1R2 := by
    intro q hq
    have hna : ∀ g : Args, ∀ r, g.randoms1 = some r → ¬ isAnalytic g = true := fun g r h => by simp [isAnalytic, h]
    unfold runBase at hq ⊢
    rw [if_neg (hna g _ h1), h1] at hq
    rw [if_neg (hna { g with data1 := d, data2 := some g.data1, randoms1 := some r2, randoms2 := some r1 } r2 rfl)]
    simp only at hq ⊢
    unfold runLS at hq ⊢
    simp only [h2, Option.getD_some] at hq ⊢
    have hRp : randomPairs e { g with data1 := d, data2 := some g.data1, randoms1 := some r2, randoms2 := some r1 } r2 r1 = randomPairs e g r1 r2 := by
      unfold randomPairs
      rw [hct]
      simp only [hR]
      unfold counted
      rw [hs2]
    rw [hRp]
    have hDD : counted e (counterOf g) g.bins d (some g.data1) = counted e (counterOf g) g.bins g.data1 (some d) := by
      unfold counted
      rw [hs1]
    simp only [hct, hd] at hq ⊢
    rw [hDD]
    cases hrr : randomPairs e g r1 r2 with
    | error er => rw [hrr] at hq; cases hq
    | ok rr =>
      rw [hrr] at hq
      simp only [Except.bind] at hq ⊢
      cases hdd : counted e (counterOf g) g.bins g.data1 (some d) with
      | error er => rw [hdd] at hq; cases hq
      | ok dd =>
        rw [hdd] at hq
        simp only at hq ⊢
        cases hdr : counted e (counterOf g) g.bins g.data1 (some r2) with
        | error er => rw [hdr] at hq; cases hq
        | ok dr =>
          rw [hdr] at hq
          simp only at hq
          have hsp : secondPairs e g r1 dr = counted e (counterOf g) g.bins d (some r1) := by
            unfold secondPairs
            rw [hd]
          rw [hsp] at hq
          cases hrd : counted e (counterOf g) g.bins d (some r1) with
          | error er => rw [hrd] at hq; cases hq
          | ok rd =>
            rw [hrd] at hq
            simp only at hq ⊢
            have hsp' : secondPairs e { g with data1 := d, data2 := some g.data1, randoms1 := some r2, randoms2 := some r1 } r2 rd = .ok dr := by
              unfold secondPairs
              simp only [hct]
              exact hdr
            rw [hsp']
            simp only
            split at hq
            · cases hq
            · rename_i hsh
              rw [if_neg hsh, ls_rows_comm]
              cases hcf : corrOf dd.2 ((dd.1.rows.zip (dr.1.rows.zip (rd.1.rows.zip rr.1.rows))).map fun p =>
                  Estim.lsBin dd.1.total dr.1.total rd.1.total rr.1.total p.1.2 p.2.1.2 p.2.2.1.2 p.2.2.2) with
              | error er => rw [hcf] at hq; cases hq
              | ok cf =>
                rw [hcf] at hq
                cases hq
                exact ⟨_, rfl, rfl, rfl, rfl, rfl, rfl, rfl⟩
  unfold new at ho ⊢
  cases hq : runBase e g with
  | error er => rw [hq] at ho; cases ho
  | ok q =>
    obtain ⟨q', k1, k2, k3, k4, k5, k6, k7⟩ := key q hq
    rw [hq] at ho
    rw [k1]
    simp only [Except.bind] at ho ⊢
    by_cases hp : g.bins.mode = "projected"
    · rw [if_pos hp] at ho ⊢
      rw [k2]
      cases hw : computeWp e q.corr with
      | error er => rw [hw] at ho; cases ho
      | ok w =>
        rw [hw] at ho
        cases ho
        exact ⟨_, rfl, rfl, rfl, k4, k5, k6, k7⟩
    · rw [if_neg hp] at ho ⊢
      cases ho
      exact ⟨_, rfl, k2, k3, k4, k5, k6, k7⟩

/-- C140: with randoms, exchanging data and randoms of the two samples gives the same correlation function, `wp` and random pairs, with the two counts of
data and randoms exchanged. -/
theorem ls_swapped {P : Nat} (C : Nat → Cat) (hP : ∀ i, (C i).rows.length = P) (E : Env) (root : ℚ → ℚ) (mach : Nat → Option Nat → Mach)
    (hm : ∀ i j, (mach i j).Good P) (kw : Kw) (g : Args) (hs : g.kind = .sim) (ha : g.bins.mode ≠ "angular")
    (d r1 r2 : Nat) (hd : g.data2 = some d) (h1 : g.randoms1 = some r1) (h2 : g.randoms2 = some r2) (hR : g.R1R2 = none)
    (hb : (C g.data1).box = (C d).box) (hb' : (C r1).box = (C r2).box) (o : Tpcf) (ho : tpcf E root mach kw C g = .ok o) :
    ∃ o', tpcf E root mach kw C { g with data1 := d, data2 := some g.data1, randoms1 := some r2, randoms2 := some r1 } = .ok o' ∧
      o'.corr = o.corr ∧ o'.wp = o.wp ∧ o'.D1D2 = o.D1D2 ∧ o'.R1R2 = o.R1R2 ∧ o'.D1R2 = o.D2R1 ∧ o'.D2R1 = o.D1R2 := by
  have hct : ∀ g : Args, g.kind = .sim → counterOf g = .box := fun g hs => by simp [counterOf, periodicOf, hs]
  have he : envOf E root mach kw C { g with data1 := d, data2 := some g.data1, randoms1 := some r2, randoms2 := some r1 } = envOf E root mach kw C g := rfl
  unfold tpcf at ho ⊢
  rw [he]
  obtain ⟨e, hee⟩ : ∃ e, e = envOf E root mach kw C g := ⟨_, rfl⟩
  have hs1 := env_comm C hP E root mach hm kw g g.bins ha g.data1 d hb
  have hs2 := env_comm C hP E root mach hm kw g g.bins ha r1 r2 hb'
  rw [← hee] at ho hs1 hs2 ⊢
  exact ls_swapped_env e g d r1 r2 hd h1 h2 hR (by rw [hct g hs]; exact hs1) (by rw [hct g hs]; exact hs2) o ho

end NBK.BoxTpcf
