import Verif.PcfObj.ColumnProps

set_option linter.unusedSimpArgs false

/-!
# Cross-correlations without randoms, wrong arguments, and random pairs that were counted before
-/
namespace NBK.PcfObj
open NBK

/-- The first dimension is never called like a column of counts. -/
theorem head_dim {b : Bins} {de : List String × List (List ℚ)} (h : stateBins b = .ok de) :
    de.1.headD "" ≠ "wnpairs" ∧ de.1.headD "" ≠ "npairs" := by
  have : de.1.headD "" = "r" ∨ de.1.headD "" = "rp" ∨ de.1.headD "" = "theta" := by
    unfold stateBins at h
    split at h
    · simp [← Except.ok.inj h]
    split at h
    · split at h
      · simp [← Except.ok.inj h]
      · cases h
    split at h
    · split at h
      · simp [← Except.ok.inj h]
      · cases h
    split at h
    · simp [← Except.ok.inj h]
    · cases h
  rcases this with h | h | h <;> rw [h] <;> decide

theorem count_columns {dim : String} (h1 : dim ≠ "wnpairs") (h2 : dim ≠ "npairs") (x : Count) (p : BS) (hp : p.data = pairsData dim x) :
    columnOf p "wnpairs" = x.rows.map (fun r => .fin r.2) ∧ columnOf p "npairs" = x.rows.map (fun r => .fin (r.1 : ℚ)) := by
  have n2 : decide ("npairs" = "wnpairs") = false := by decide
  have d1 : decide (dim = "wnpairs") = false := by simp [h1]
  have d2 : decide (dim = "npairs") = false := by simp [h2]
  constructor
  · rw [columnOf, hp, pairsData]
    simp only [List.find?_cons, d1, n2, decide_true, Option.elim_some]
  · rw [columnOf, hp, pairsData]
    simp only [List.find?_cons, d2, decide_true, Option.elim_some]

/-- C108: without randoms in a periodic box the pairs are those of the given catalogs; in angular mode those of the two catalogs restricted
to the sphere, each by its own box. The total number of random pairs is that of `N` objects, or of `N1` and `N2` objects. -/
theorem natural_counts (e : Env) (g : Args) (hk : g.kind = .sim) (hp : g.periodic = true) (hr : g.randoms1 = none)
    (o : Tpcf) (h : new e g = .ok o) :
    ∃ (d1 : Nat) (d2 : Option Nat) (x : Count) (rr : BS),
      (g.bins.mode ≠ "angular" → d1 = g.data1 ∧ d2 = g.data2) ∧
      (g.bins.mode = "angular" → d1 = e.sphere 0 g.data1 ∧ (e.boxOf g.data1).isSome ∧
        (∀ c, g.data2 = some c → d2 = some (e.sphere 1 c) ∧ (e.boxOf c).isSome) ∧ (g.data2 = none → d2 = none)) ∧
      e.count .box g.bins d1 d2 = .ok x ∧ o.D1D2.attrs = some x.total ∧
      columnOf o.D1D2 "wnpairs" = x.rows.map (fun r => .fin r.2) ∧
      o.R1R2 = some rr ∧
      (x.isCross = false → rr.attrs = some ((e.csize d1 : ℚ) * (e.csize d1 - 1) * (1 / 2))) ∧
      (x.isCross = true → ∀ c, d2 = some c → rr.attrs = some ((e.csize d1 : ℚ) * e.csize c * (1 / 2))) := by
  obtain ⟨r, h0, -, q1, -, -, q2, -, -⟩ := run_of_new h
  rw [q1, q2]
  unfold runBase at h0
  rw [if_pos (by simp [isAnalytic, periodicOf, hk, hp, hr])] at h0
  have hct : counterOf g = .box := by simp [counterOf, periodicOf, hk]
  unfold runNatural at h0
  cases hnd : naturalData e g with
  | error _ => simp [hnd, Except.bind] at h0
  | ok ds =>
    simp only [hnd, Except.bind, hct] at h0
    cases h2' : counted e .box g.bins ds.1 ds.2 with
    | error _ => simp [h2', Except.bind] at h0
    | ok dd =>
      obtain ⟨md, de, k1, k2, k3, k4, k5, k6, k7, -, -, k8⟩ := counted_std h2'
      simp only [h2', Except.bind] at h0
      split at h0
      · cases h0
      rename_i rr hrr
      split at h0
      · cases h0
      rw [← Except.ok.inj h0]
      dsimp only
      refine ⟨ds.1, ds.2, dd.1, rr, ?_, ?_, k4, k6, ?_, rfl, ?_, ?_⟩
      · intro hm
        unfold naturalData at hnd
        rw [if_neg hm] at hnd
        rw [← Except.ok.inj hnd]
        exact ⟨rfl, rfl⟩
      · intro hm
        unfold naturalData at hnd
        rw [if_pos hm] at hnd
        unfold restrict at hnd
        cases hb1 : e.boxOf g.data1 with
        | none => simp [hb1, Except.bind] at hnd
        | some b1 =>
          cases hd2 : g.data2 with
          | none =>
            simp only [hb1, hd2, Except.bind, restrictOpt, Except.ok.injEq] at hnd
            rw [← hnd]
            exact ⟨rfl, rfl, fun c hc => by simp at hc, fun _ => rfl⟩
          | some c =>
            cases hb2 : e.boxOf c with
            | none => simp [hb1, hd2, restrictOpt, restrict, hb2, Except.bind] at hnd
            | some b2 =>
              simp only [hb1, hd2, Except.bind, restrictOpt, restrict, hb2, Except.ok.injEq] at hnd
              rw [← hnd]
              refine ⟨rfl, rfl, ?_, fun hc => by simp at hc⟩
              intro c' hc
              obtain rfl := Option.some.inj hc
              exact ⟨rfl, by simp [hb2]⟩
      · exact (count_columns (head_dim k2).1 (head_dim k2).2 dd.1 dd.2 k7).1
      · intro hc
        simp only [hc, Bool.false_eq_true, if_false] at hrr
        unfold analyticPairs at hrr
        cases hm : make dd.2.dims dd.2.edges dd.2.shape
          [⟨"npairs", false, (Estim.analytic (filling e g.bins.mode dd.2.edges (g.box.getD ((e.boxOf ds.1).getD [0, 0, 0]))) (↑(e.csize ds.1)) none).2.map .fin⟩,
           ⟨"wnpairs", false, (Estim.analytic (filling e g.bins.mode dd.2.edges (g.box.getD ((e.boxOf ds.1).getD [0, 0, 0]))) (↑(e.csize ds.1)) none).2.map .fin⟩] [] none with
        | error _ => simp [hm, Except.bind] at hrr
        | ok p =>
          simp only [hm, Except.bind, Except.ok.injEq] at hrr
          rw [← hrr]
          rfl
      · intro hc c hd
        simp only [hc, if_true, hd, Option.map_some] at hrr
        unfold analyticPairs at hrr
        cases hm : make dd.2.dims dd.2.edges dd.2.shape
          [⟨"npairs", false, (Estim.analytic (filling e g.bins.mode dd.2.edges (g.box.getD ((e.boxOf ds.1).getD [0, 0, 0]))) (↑(e.csize ds.1)) (some ↑(e.csize c))).2.map .fin⟩,
           ⟨"wnpairs", false, (Estim.analytic (filling e g.bins.mode dd.2.edges (g.box.getD ((e.boxOf ds.1).getD [0, 0, 0]))) (↑(e.csize ds.1)) (some ↑(e.csize c))).2.map .fin⟩] [] none with
        | error _ => simp [hm, Except.bind] at hrr
        | ok p =>
          simp only [hm, Except.bind, Except.ok.injEq] at hrr
          rw [← hrr]
          rfl

/-- C108: the cross-correlation of two catalogs without randoms in a periodic box of volume `V`: in the bin of separations between `a` and
`b` it is `DD / (total DD) / (RR / total RR) - 1`, where `RR = N1 N2 (4/3 pi (b^3 - a^3) / V)` and `total RR = N1 N2 / 2`. -/
theorem natural_1d_cross (e : Env) (g : Args) (hk : g.kind = .sim) (hp : g.periodic = true) (hr : g.randoms1 = none) (d : Nat) (hd : g.data2 = some d)
    (hm : g.bins.mode = "1d") (o : Tpcf) (h : new e g = .ok o) (x : Count) (hx : e.count .box g.bins g.data1 (some d) = .ok x) (hcr : x.isCross = true)
    (i : Nat) (a b : ℚ) (n : Nat) (w : ℚ) (h1 : g.bins.edges[i]? = some a) (h2 : g.bins.edges[i + 1]? = some b) (h3 : x.rows[i]? = some (n, w))
    (N1 N2 V : ℚ) (hN1 : N1 = e.csize g.data1) (hN2 : N2 = e.csize d) (hV : V = (g.box.getD ((e.boxOf g.data1).getD [0, 0, 0])).prod)
    (hne1 : N1 ≠ 0) (hne2 : N2 ≠ 0) (ht : x.total ≠ 0) (hff : e.pi * (b ^ 3 - a ^ 3) / V ≠ 0) :
    (columnOf o.corr "corr")[i]? = some (.fin (w / x.total * (N1 * N2 / 2) / (N1 * N2 * (4 / 3 * e.pi * (b ^ 3 - a ^ 3) / V)) - 1)) := by
  obtain ⟨r, h0, -, -, -, -, -, hcorr, -⟩ := run_of_new h
  rw [hcorr]
  have n1a : ¬ ("1d" = "angular") := by decide
  unfold runBase at h0
  rw [if_pos (by simp [isAnalytic, periodicOf, hk, hp, hr])] at h0
  have hct : counterOf g = .box := by simp [counterOf, periodicOf, hk]
  unfold runNatural at h0
  have hnd : naturalData e g = .ok (g.data1, some d) := by simp [naturalData, hm, n1a, hd]
  simp only [hnd, Except.bind, hct] at h0
  cases h2' : counted e .box g.bins g.data1 (some d) with
  | error _ => simp [h2', Except.bind] at h0
  | ok dd =>
    obtain ⟨md, de, k1, k2, k3, k4, -⟩ := counted_std h2'
    rw [hx] at k4
    obtain rfl := Except.ok.inj k4
    simp only [h2', Except.bind, hcr] at h0
    split at h0
    · cases h0
    split at h0
    · cases h0
    rename_i cf hcf
    obtain ⟨-, c2, -⟩ := corr_std k3 hcf
    rw [← Except.ok.inj h0]
    dsimp only
    rw [columnOf, c2]
    have hst : stateBins g.bins = .ok (["r"], [g.bins.edges]) := by simp [stateBins, hm]
    rw [hst] at k2
    obtain rfl := Except.ok.inj k2
    simp only [List.find?_cons, decide_true, Option.elim_some, List.getElem?_map, hm, k3.edges]
    have hsh := Estim.ff1d_shell e.pi V g.bins.edges i a b h1 h2
    rw [hV] at hsh
    unfold Estim.natural Estim.analytic
    simp only [filling, if_true, List.headD_cons, Option.map_some, Option.elim_some]
    have hz : ∀ rows : List ℚ, rows[i]? = some (N1 * N2 * (4 / 3 * e.pi * (b ^ 3 - a ^ 3) / V)) →
        (dd.1.pc.rows.zip rows)[i]? = some ((n, w), N1 * N2 * (4 / 3 * e.pi * (b ^ 3 - a ^ 3) / V)) :=
      fun rows hrows => List.getElem?_zip_eq_some.mpr ⟨h3, hrows⟩
    rw [List.getElem?_map, hz _ (by rw [List.getElem?_map, hsh, hN1, hN2, hV]; rfl)]
    rw [← hN1, ← hN2]
    have hff' : N1 * N2 * (4 / 3 * e.pi * (b ^ 3 - a ^ 3) / V) ≠ 0 := by
      have : 4 / 3 * e.pi * (b ^ 3 - a ^ 3) / V = 4 / 3 * (e.pi * (b ^ 3 - a ^ 3) / V) := by ring
      rw [this]
      exact mul_ne_zero (mul_ne_zero hne1 hne2) (mul_ne_zero (by norm_num) hff)
    simp only [Option.map_some, Estim.fdiv, Count.pc, ht, if_false, bind, Option.bind, pure]
    rw [if_neg hff']
    simp only [val, Option.some.injEq, Binned.Val.fin.injEq]
    ring

/-- C108: in angular mode the second catalog needs the attribute `BoxSize`, too. -/
theorem angular_second_needs_attr (e : Env) (g : Args) (hk : g.kind = .sim) (hp : g.periodic = true) (hr : g.randoms1 = none)
    (hm : g.bins.mode = "angular") (c : Nat) (hd : g.data2 = some c) (hb : e.boxOf c = none) : new e g = .error .keyError := by
  have ha : isAnalytic g = true := by simp [isAnalytic, periodicOf, hk, hr, hp]
  cases h1 : e.boxOf g.data1 with
  | none => exact angular_needs_attr e g hk hp hr hm h1
  | some b => simp [new, runBase, ha, runNatural, naturalData, hm, restrict, restrictOpt, h1, hd, hb, Except.bind]

/-- C108: arguments that fix no bins (an unknown mode, no `Nmu` or `pimax` where needed) are a ValueError, with and without randoms. -/
theorem wrong_arguments (e : Env) (g : Args) (x : Pairs.Err) (hx : Pairs.checkArgs g.bins.mode g.bins.edges g.bins.Nmu g.bins.pimax = .error x)
    (hm : g.bins.mode ≠ "angular") : new e g = .error .valueError := by
  unfold new runBase
  split
  · simp [runNatural, naturalData, hm, counted, hx, Except.bind]
  split
  · rfl
  · rename_i r1 _
    unfold runLS randomPairs
    cases hR : g.R1R2 with
    | none => simp [counted, hx, Except.bind]
    | some p => simp [counted, hx, Except.bind]

/-- The counts of given random pairs are those of the count they were made from. -/
theorem given_counts (c : Counter) (b : Bins) (x : Count) (o : PC) (h : newPC c b (.ok x) = .ok o) :
    givenPC o = x.pc ∧ o.attrs.total = x.total ∧ pairsOf c b x = .ok o.pairs := by
  unfold newPC at h
  split at h
  · cases h
  rename_i md hck
  cases hp : pairsOf c b x with
  | error _ => simp [hp, Except.bind] at h
  | ok p =>
    simp only [hp, Except.bind, Except.ok.injEq] at h
    obtain ⟨p', h1, h2, h3, h4⟩ := pairs_columns c b x md hck
    rw [hp] at h1
    obtain rfl := Except.ok.inj h1
    obtain ⟨p', h1, g1, g2, g3, -⟩ := pairs_spec c b x md hck
    rw [hp] at h1
    obtain rfl := Except.ok.inj h1
    subst h
    refine ⟨?_, rfl, rfl⟩
    obtain ⟨c1, c2⟩ := count_columns (head_dim g1).1 (head_dim g1).2 x p g3
    rw [givenPC, c1, c2, Count.pc]
    congr 1
    rw [List.zipWith_map, List.zipWith_self]
    conv_rhs => rw [← List.map_id x.rows]
    apply List.map_congr_left
    intro r _
    simp [Binned.Val.rat?]

theorem runBase_ls (e : Env) (g : Args) (r1 : Nat) (hr : g.randoms1 = some r1) : runBase e g = runLS e g r1 := by
  unfold runBase
  rw [if_neg (by simp [isAnalytic, hr]), hr]

/-- C108: random pairs that were counted before, with the same counter and bins, give the same result as counting them now. -/
theorem precomputed (e : Env) (g : Args) (r1 : Nat) (hr : g.randoms1 = some r1) (o : PC)
    (ho : newPC (counterOf g) g.bins (e.count (counterOf g) g.bins r1 (some (g.randoms2.getD r1))) = .ok o) :
    new e { g with R1R2 := some o } = new e { g with R1R2 := none } := by
  have key : randomPairs e { g with R1R2 := some o } r1 (g.randoms2.getD r1) = randomPairs e { g with R1R2 := none } r1 (g.randoms2.getD r1) := by
    have hc : counterOf { g with R1R2 := none } = counterOf g := rfl
    unfold randomPairs
    dsimp only
    rw [hc]
    cases hx : e.count (counterOf g) g.bins r1 (some (g.randoms2.getD r1)) with
    | error _ =>
      rw [hx] at ho
      unfold newPC at ho
      split at ho <;> cases ho
    | ok x =>
      rw [hx] at ho
      obtain ⟨a1, a2, a3⟩ := given_counts _ _ _ _ ho
      have hck : ∃ md, Pairs.checkArgs g.bins.mode g.bins.edges g.bins.Nmu g.bins.pimax = .ok md := by
        unfold newPC at ho
        split at ho
        · cases ho
        · exact ⟨_, by assumption⟩
      obtain ⟨md, hck⟩ := hck
      simp only [counted, hck, hx, Except.bind, a3, a1]
  have hrun : runLS e { g with R1R2 := some o } r1 = runLS e { g with R1R2 := none } r1 := by
    unfold runLS
    dsimp only
    rw [key]
    rfl
  unfold new
  rw [runBase_ls e { g with R1R2 := some o } r1 hr, runBase_ls e { g with R1R2 := none } r1 hr, hrun]

/-- The result with the metadata of the random pairs left out. -/
def noTotal (t : Tpcf) : Tpcf := { t with R1R2 := t.R1R2.map fun p => { p with attrs := none } }

/-- C108: the same for random pairs that were saved and loaded, except for the metadata `total_wnpairs` of `R1R2`. -/
theorem precomputed_loaded (e : Env) (g : Args) (r1 : Nat) (hr : g.randoms1 = some r1) (o l : PC)
    (ho : newPC (counterOf g) g.bins (e.count (counterOf g) g.bins r1 (some (g.randoms2.getD r1))) = .ok o) (hl : saveLoadPC o = .ok l) :
    (new e { g with R1R2 := some l }).map noTotal = (new e { g with R1R2 := none }).map noTotal := by
  rw [← precomputed e g r1 hr o ho]
  obtain ⟨hs, -⟩ := pc_saveLoad_partial _ _ _ _ ho
  rw [hs] at hl
  obtain rfl := Except.ok.inj hl
  have hg : givenPC ⟨o.attrs, { o.pairs with attrs := none }⟩ = givenPC o := rfl
  have hsh : ({ o.pairs with attrs := none } : BS).shape = o.pairs.shape := rfl
  have hc : ∀ x : Option PC, counterOf { g with R1R2 := x } = counterOf g := fun _ => rfl
  unfold new
  rw [runBase_ls e { g with R1R2 := some ⟨o.attrs, { o.pairs with attrs := none }⟩ } r1 hr, runBase_ls e { g with R1R2 := some o } r1 hr]
  have hsec : ∀ (x : Option PC) (y : Count × BS), secondPairs e { g with R1R2 := x } r1 y = secondPairs e g r1 y := fun _ _ => rfl
  unfold runLS randomPairs
  simp only [hc, hsec, hg, hsh, Except.bind]
  cases counted e (counterOf g) g.bins g.data1 g.data2 with
  | error _ => rfl
  | ok dd =>
    dsimp only
    cases counted e (counterOf g) g.bins g.data1 (some (g.randoms2.getD r1)) with
    | error _ => rfl
    | ok dr =>
      dsimp only
      generalize secondPairs e g r1 dr = rd
      cases rd with
      | error _ => rfl
      | ok rd =>
        dsimp only
        by_cases hs : o.pairs.shape ≠ dd.2.shape
        · simp only [hs, not_false_eq_true, if_true, ne_eq]
        · rw [if_neg hs, if_neg hs]
          cases corrOf dd.2 _ with
          | error _ => rfl
          | ok cf =>
            dsimp only
            by_cases hm : g.bins.mode = "projected"
            · simp only [hm, if_true]
              cases computeWp e cf with
              | error _ => rfl
              | ok w => rfl
            · simp only [hm, if_false]
              rfl

/-- Catalogs of `4 + c` objects, in boxes of size 10; the spheres are the catalogs 100 + c and 200 + c. -/
def env1 : Env := { env0 with
  count := fun c b i j => match j with
    | none => env0.count c b i none
    | some j => (env0.count c b i (some j)).map fun x => { x with isCross := true, total := x.total + j }
  csize := fun c => 4 + c
  sphere := fun k c => 100 * (k + 1) + c }

/-- The total of the random pairs and the correlation function. -/
def cross (x : Except Err Tpcf) : Option (Option ℚ × List Binned.Val) :=
  match x with
  | .ok o => some (o.R1R2.bind fun r => r.attrs, columnOf o.corr "corr")
  | .error _ => none

/-- The random pairs of `ls0` as counted before. -/
def before : Option PC :=
  match newPC .survey ls0.bins (env1.count .survey ls0.bins 1 (some 1)) with
  | .ok p => some p
  | .error _ => none

def beforeLoaded : Option PC :=
  match before.map saveLoadPC with
  | some (.ok p) => some p
  | _ => none

/-- The hypotheses can be met: catalogs 0 and 2 with 4 and 6 objects have 12 random pairs; in angular mode the spheres have 104 and 206 objects;
random pairs counted before, also when loaded from a file; an unknown mode. -/
theorem cross_case :
    cross (new env1 { natural0 with data2 := some 2 }) = some (some 12, [.fin (3 / 8 / (24 * (4 * 7 / 1000)) * 12 - 1), .fin (3 / 8 / (24 * (4 * 19 / 1000)) * 12 - 1)]) ∧
    (cross (new env1 { natural0 with data2 := some 2, bins := ⟨"angular", [1, 2], none, none⟩ })).map Prod.fst = some (some (104 * 206 / 2)) ∧
    (before.isSome ∧ beforeLoaded.isSome ∧ cross (new env1 { ls0 with R1R2 := before }) = cross (new env1 ls0) ∧
      (cross (new env1 { ls0 with R1R2 := beforeLoaded })).map Prod.snd = (cross (new env1 ls0)).map Prod.snd ∧
      (cross (new env1 { ls0 with R1R2 := beforeLoaded })).map Prod.fst = some none) ∧
    failed (new env1 { natural0 with bins := ⟨"3d", [1, 2], none, none⟩ }) = some .valueError := by
  decide +kernel

/-- The rows over which `w_p` integrates: row `i` holds the values at `i * m`, `i * m + 1`, … and no more than `m` of them. -/
theorem rows_entry {α : Type} (n m : Nat) (l : List α) (i : Nat) (hi : i < n) :
    ∃ r : List α, (rowsOf n m l)[i]? = some r ∧ (∀ j, j < m → r[j]? = l[i * m + j]?) ∧ ∀ j, m ≤ j → r[j]? = none := by
  refine ⟨(l.drop (i * m)).take m, by simp [rowsOf, hi], fun j hj => ?_, fun j hj => ?_⟩
  · rw [List.getElem?_take, if_pos hj, List.getElem?_drop]
  · rw [List.getElem?_take, if_neg (by omega)]

example : rowsOf 2 2 [1, 2, 3, 4] = [[1, 2], [3, 4]] := by decide

end NBK.PcfObj
