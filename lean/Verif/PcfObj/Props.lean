import Verif.PcfObj.Model
import Verif.Estim.Props
import Verif.Pairs.BoxProps
import Verif.Binned.Props
import Verif.Binned.MaskProps
import Verif.Binned.AverageProps
import Mathlib.Tactic.FieldSimp
import Mathlib.Tactic.Linarith
import Mathlib.Tactic.Ring
import Mathlib.Tactic.ByContra

/-!
# Properties of the objects of the pair counts and of the two-point correlation function
-/
set_option linter.unusedSimpArgs false
namespace NBK.PcfObj
open NBK

/-! ## Pair counts -/

theorem make_iff (dims : List String) (edges : List (List ℚ)) (shape : List Nat) (data : List Binned.Col) (fts : List String) (a : Option ℚ) (b : BS) :
    make dims edges shape data fts a = .ok b ↔ dims.length = edges.length ∧ shape = edges.map (fun e => e.length - 1) ∧
      b = ⟨dims, edges, edges.map Binned.centers, data, Binned.maskOf shape.prod data, a, fts⟩ := by
  have hc : (edges.mapIdx fun i e => ((none : Option (List (Option (List ℚ)))).bind fun l => (l[i]?).join).getD (Binned.centers e)) = edges.map Binned.centers := by
    apply List.ext_getElem <;> simp
  have hl : (edges.map Binned.centers).map List.length = edges.map (fun e => e.length - 1) := by
    simp [Binned.centers_length, Function.comp_def]
  unfold make Binned.init
  rw [hc]
  by_cases h1 : dims.length = edges.length
  · by_cases h2 : shape = edges.map (fun e => e.length - 1)
    · subst h2
      simp only [h1, ne_eq, not_true_eq_false, if_false, hl, lift, Except.ok.injEq, true_and]
      exact eq_comm
    · simp [h1, h2, lift]
  · simp [h1, lift]

theorem floor_succ (p : ℚ) (h : 0 ≤ p) : ⌊p + 1⌋.toNat = ⌊p⌋.toNat + 1 := by
  have : ⌊p + 1⌋ = ⌊p⌋ + 1 := by
    have := Int.floor_add_intCast p 1
    simpa using this
  rw [this]
  have := Int.floor_nonneg.mpr h
  omega

/-- What the arguments are, once accepted. -/
theorem accepted {b : Bins} {md : Pairs.Mode} (h : Pairs.checkArgs b.mode b.edges b.Nmu b.pimax = .ok md) :
    (b.mode = "1d" ∨ (b.mode = "2d" ∧ ∃ n, b.Nmu = some n) ∨ (b.mode = "projected" ∧ ∃ p, b.pimax = some p ∧ 1 ≤ p) ∨ b.mode = "angular") ∧
      b.edges ≠ [] := by
  obtain ⟨h1, h2, -, h4, h5, h6⟩ := (Pairs.checkArgs_iff b.mode b.edges b.Nmu b.pimax).mp ⟨md, h⟩
  refine ⟨?_, h2⟩
  simp only [List.mem_cons, List.not_mem_nil, or_false] at h1
  rcases h1 with h1 | h1 | h1 | h1
  · exact Or.inl h1
  · refine Or.inr (Or.inl ⟨h1, ?_⟩)
    exact Option.ne_none_iff_exists'.mp (h4.mpr h1)
  · refine Or.inr (Or.inr (Or.inl ⟨h1, ?_⟩))
    obtain ⟨p, hp⟩ := Option.ne_none_iff_exists'.mp (h5.mpr h1)
    exact ⟨p, hp, h6 p hp⟩
  · exact Or.inr (Or.inr (Or.inr h1))

/-- C108: whichever counter is used, the pairs have the dimensions and edges that the mode asks for, which are those made again on loading; the
columns are the mean separation, `npairs` and `wnpairs`, the last two of which are summed, and `total_wnpairs` is in the metadata. -/
theorem pairs_spec (c : Counter) (b : Bins) (x : Count) (md : Pairs.Mode) (h : Pairs.checkArgs b.mode b.edges b.Nmu b.pimax = .ok md) :
    ∃ p : BS, pairsOf c b x = .ok p ∧ stateBins b = .ok (p.dims, p.edges) ∧ p.coords = p.edges.map Binned.centers ∧
      p.data = pairsData (p.dims.headD "") x ∧ p.mask = Binned.maskOf p.shape.prod p.data ∧ p.attrs = some x.total ∧
      p.fts = ["npairs", "wnpairs"] ∧ p.shape = p.edges.map (fun e => e.length - 1) ∧ p.dims.length = p.edges.length ∧
      p.edges.head? = some b.edges ∧ (∀ e ∈ p.edges, e ≠ []) ∧ p.dims.Nodup := by
  obtain ⟨hm, hne⟩ := accepted h
  have hlin : ∀ (a z : ℚ) (n : Nat), (linspace a z n).length = n := fun a z n => by simp [linspace]
  have gen : ∀ (dims : List String) (edges : List (List ℚ)), dims.length = edges.length → runBins c b = (dims, edges) →
      ¬ (c = .survey ∧ b.mode = "1d") → stateBins b = .ok (dims, edges) → edges.head? = some b.edges → (∀ e ∈ edges, e ≠ []) → dims.Nodup →
      ∃ p : BS, pairsOf c b x = .ok p ∧ stateBins b = .ok (p.dims, p.edges) ∧ p.coords = p.edges.map Binned.centers ∧
      p.data = pairsData (p.dims.headD "") x ∧ p.mask = Binned.maskOf p.shape.prod p.data ∧ p.attrs = some x.total ∧
      p.fts = ["npairs", "wnpairs"] ∧ p.shape = p.edges.map (fun e => e.length - 1) ∧ p.dims.length = p.edges.length ∧
      p.edges.head? = some b.edges ∧ (∀ e ∈ p.edges, e ≠ []) ∧ p.dims.Nodup := by
    intro dims edges hl hr hs hst hhd hne' hnd
    have hsh : (edges.map Binned.centers).map List.length = edges.map (fun e => e.length - 1) := by
      simp [Binned.centers_length, Function.comp_def]
    refine ⟨⟨dims, edges, edges.map Binned.centers, pairsData (dims.headD "") x,
      Binned.maskOf (edges.map fun e => e.length - 1).prod (pairsData (dims.headD "") x), some x.total, ["npairs", "wnpairs"]⟩,
      ?_, hst, rfl, rfl, ?_, rfl, rfl, ?_, hl, hhd, hne', hnd⟩
    · unfold pairsOf
      rw [hr]
      dsimp only
      rw [(make_iff _ _ _ _ _ _ _).mpr ⟨hl, rfl, rfl⟩]
      simp only [Except.bind, if_neg hs]
    · simp only [Binned.BS.shape, hsh]
    · simp only [Binned.BS.shape, hsh]
  have n12 : ¬ ("2d" = "1d") := by decide
  have np1 : ¬ ("projected" = "1d") := by decide
  have np2 : ¬ ("projected" = "2d") := by decide
  have na1 : ¬ ("angular" = "1d") := by decide
  have na2 : ¬ ("angular" = "2d") := by decide
  have nap : ¬ ("angular" = "projected") := by decide
  rcases hm with hm | ⟨hm, n, hn⟩ | ⟨hm, p, hp, hp1⟩ | hm
  · cases c with
    | box =>
      refine gen ["r"] [b.edges] rfl (by simp [runBins, hm]) (by simp) (by simp [stateBins, hm]) rfl (by simpa using hne) (by decide)
    | survey =>
      have hsh : (Binned.centers (linspace 0 1 2)).length = 1 := by simp [Binned.centers_length, hlin]
      refine ⟨⟨["r"], [b.edges], [Binned.centers b.edges], pairsData "r" x, Binned.maskOf (b.edges.length - 1) (pairsData "r" x), some x.total,
        ["npairs", "wnpairs"]⟩, ?_, ?_, rfl, rfl, ?_, rfl, rfl, ?_, rfl, rfl, by simpa using hne, by simp⟩
      · unfold pairsOf
        have hr : runBins .survey b = (["r", "mu"], [b.edges, linspace 0 1 2]) := by simp [runBins, hm]
        rw [hr]
        dsimp only
        rw [(make_iff _ _ _ _ _ _ _).mpr ⟨rfl, rfl, rfl⟩]
        simp only [Except.bind, hm, and_self, if_true]
        have hi : List.idxOf "mu" ["r", "mu"] = 1 := by decide
        simp [Binned.squeeze, hi, Binned.BS.shape, hsh, lift, hlin]
      · simp [stateBins, hm]
      · simp [Binned.BS.shape, Binned.centers_length]
      · simp [Binned.BS.shape, Binned.centers_length]
  · refine gen ["r", "mu"] [b.edges, linspace 0 1 (n + 1)] rfl (by simp [runBins, hm, hn, n12]) (by simp [hm, n12]) (by simp [stateBins, hm, hn, n12]) rfl ?_ (by decide)
    intro e he
    simp only [List.mem_cons, List.not_mem_nil, or_false] at he
    rcases he with rfl | rfl
    · exact hne
    · intro h0; have := hlin 0 1 (n + 1); rw [h0] at this; simp at this
  · have hfl := floor_succ p (by linarith)
    have hr : runBins c b = (["rp", "pi"], [b.edges, linspace 0 p ⌊p + 1⌋.toNat]) := by
      rw [hfl]; cases c <;> simp only [runBins, hm, hp, np1, np2, Option.getD_some, hfl, if_true, if_false]
    refine gen _ _ rfl hr (by simp [hm, np1]) (by simp [stateBins, hm, hp, np1, np2]) rfl ?_ (by decide)
    intro e he
    simp only [List.mem_cons, List.not_mem_nil, or_false] at he
    rcases he with rfl | rfl
    · exact hne
    · intro h0; have := hlin 0 p ⌊p + 1⌋.toNat; rw [h0, hfl] at this; simp at this
  · refine gen ["theta"] [b.edges] rfl (by simp [runBins, hm, na1, na2, nap]) (by simp [hm, na1])
      (by simp [stateBins, hm, na1, na2, nap]) rfl (by simpa using hne) (by decide)

/-- C108: the edges of `mu` divide [0, 1] into `Nmu` equal bins. -/
theorem mu_edges (b : Bins) (n : Nat) (hm : b.mode = "2d") (hn : b.Nmu = some n) (h0 : 0 < n) :
    ∃ mu : List ℚ, stateBins b = .ok (["r", "mu"], [b.edges, mu]) ∧ mu.length = n + 1 ∧ ∀ i ≤ n, mu[i]? = some ((i : ℚ) / n) := by
  have n12 : ¬ ("2d" = "1d") := by decide
  refine ⟨linspace 0 1 (n + 1), by simp [stateBins, hm, hn, n12], by simp [linspace], fun i hi => ?_⟩
  have : i < n + 1 := by omega
  simp [linspace, this, div_eq_mul_inv]

/-- C108: the bins along the line of sight are `floor(pimax)` equal ones from 0 to `pimax`; they have unit depth, as documented, exactly if
`pimax` is an integer. -/
theorem pi_edges (b : Bins) (p : ℚ) (hm : b.mode = "projected") (hp : b.pimax = some p) (h1 : 1 ≤ p) :
    ∃ pi : List ℚ, stateBins b = .ok (["rp", "pi"], [b.edges, pi]) ∧ pi.length = ⌊p⌋.toNat + 1 ∧
      (∀ i ≤ ⌊p⌋.toNat, pi[i]? = some (i * (p / ⌊p⌋.toNat))) ∧ (p / ⌊p⌋.toNat = 1 ↔ ∃ z : Int, p = z) := by
  have np1 : ¬ ("projected" = "1d") := by decide
  have np2 : ¬ ("projected" = "2d") := by decide
  have hfl := floor_succ p (by linarith)
  have hf1 : 1 ≤ ⌊p⌋ := Int.le_floor.mpr (by simpa using h1)
  have hcast : ((⌊p⌋.toNat : ℕ) : ℚ) = (⌊p⌋ : ℚ) := by
    have : ((⌊p⌋.toNat : ℕ) : Int) = ⌊p⌋ := Int.toNat_of_nonneg (by omega)
    exact_mod_cast this
  refine ⟨linspace 0 p ⌊p + 1⌋.toNat, by simp [stateBins, hm, hp, np1, np2], by rw [hfl]; simp [linspace], fun i hi => ?_, ?_⟩
  · have : i < ⌊p⌋.toNat + 1 := by omega
    rw [hfl]
    simp [linspace, this]
  · rw [hcast]
    have hpos : (0 : ℚ) < (⌊p⌋ : ℚ) := by exact_mod_cast (by omega : (0 : Int) < ⌊p⌋)
    rw [div_eq_one_iff_eq hpos.ne']
    constructor
    · intro h; exact ⟨_, h⟩
    · rintro ⟨z, rfl⟩; simp

/-- C108: what is loaded is what was saved, up to the metadata of `pairs`: `pairs.attrs['total_wnpairs']` is missing (`attrs['total_wnpairs']` of
the object remains). -/
theorem pc_saveLoad_partial (c : Counter) (b : Bins) (x : Except Err Count) (o : PC) (h : newPC c b x = .ok o) :
    saveLoadPC o = .ok ⟨o.attrs, { o.pairs with attrs := none }⟩ ∧ o.pairs.attrs = some o.attrs.total := by
  unfold newPC at h
  split at h
  · cases h
  rename_i md hck
  cases x with
  | error e => cases h
  | ok x =>
    obtain ⟨p, h1, h2, h3, h4, h5, h6, h7, h8, h9, -⟩ := pairs_spec c b x md hck
    simp only [Except.bind, h1, Except.ok.injEq] at h
    subst h
    refine ⟨?_, h6⟩
    simp only [saveLoadPC, setstatePC, getstatePC, h2, Except.bind]
    rw [(make_iff _ _ _ _ _ _ _).mpr ⟨h9, h8, rfl⟩]
    simp only [Except.ok.injEq, PC.mk.injEq, true_and]
    rw [← h3, ← h5, ← h7]

/-! ## The correlation functions -/

/-- The arrays of the counts have the size of the bins. -/
def Sized (e : Env) (b : Bins) : Prop :=
  ∀ c first second x, e.count c b first second = .ok x → ∀ dims edges, stateBins b = .ok (dims, edges) →
    x.sep.length = (edges.map fun e => e.length - 1).prod ∧ x.rows.length = (edges.map fun e => e.length - 1).prod

/-- The object without metadata and without the list of the columns to be summed. -/
def bare (b : BS) : BS := { b with attrs := none, fts := [] }

/-- C108: a survey is counted in sky coordinates unless `periodic` is among the additional keywords. -/
theorem counter_spec (g : Args) :
    counterOf g = .box ↔ g.kind = .sim ∨ ∃ v, ("periodic", v) ∈ g.config := by
  unfold counterOf periodicOf
  cases hk : g.kind with
  | sim => simp
  | survey =>
    simp only [reduceCtorEq, false_or]
    constructor
    · intro h
      split at h
      · rename_i h'
        rw [Option.isSome_map, List.find?_isSome] at h'
        obtain ⟨p, hp, hp'⟩ := h'
        obtain ⟨a, v⟩ := p
        simp only [decide_eq_true_eq] at hp'
        subst hp'
        exact ⟨v, hp⟩
      · cases h
    · rintro ⟨v, hv⟩
      rw [if_pos]
      rw [Option.isSome_map, List.find?_isSome]
      exact ⟨_, hv, by simp⟩

/-- C108: the analytic randoms are used exactly for a periodic box without randoms; the random pairs of the caller play no role then, and there
are no data-random pairs. -/
theorem analytic_spec (e : Env) (g : Args) (r : Option PC) (hk : g.kind = .sim) (hr : g.randoms1 = none) :
    (isAnalytic g = true ↔ g.periodic = true) ∧ (g.periodic = true → new e { g with R1R2 := r } = new e g) ∧
    ∀ o, new e g = .ok o → o.D1R2 = none ∧ o.D2R1 = none := by
  have ha : isAnalytic g = g.periodic := by simp [isAnalytic, periodicOf, hk, hr]
  refine ⟨by rw [ha], ?_, ?_⟩
  · intro hp
    have ha' : isAnalytic { g with R1R2 := r } = true := by simp [isAnalytic, periodicOf, hk, hr, hp]
    unfold new runBase
    rw [if_pos ha', if_pos (ha.trans hp)]
    rfl
  · intro o ho
    unfold new runBase at ho
    rw [ha] at ho
    cases hp : g.periodic with
    | false => simp [hp, hr, Except.bind] at ho
    | true =>
      simp only [hp, if_true] at ho
      have key : ∀ o', runNatural e g = .ok o' → o'.D1R2 = none ∧ o'.D2R1 = none := by
        intro o' h
        unfold runNatural at h
        cases h1 : naturalData e g with
        | error _ => simp [h1, Except.bind] at h
        | ok ds =>
          cases h2 : counted e (counterOf g) g.bins ds.1 ds.2 with
          | error _ => simp [h1, h2, Except.bind] at h
          | ok dd =>
            simp only [h1, h2, Except.bind] at h
            split at h
            · cases h
            · split at h
              · cases h
              · rw [← Except.ok.inj h]; exact ⟨rfl, rfl⟩
      cases h1 : runNatural e g with
      | error _ => simp [h1, Except.bind] at ho
      | ok o' =>
        simp only [h1, Except.bind] at ho
        obtain ⟨k1, k2⟩ := key o' h1
        split at ho
        · split at ho
          · cases ho
          · rw [← Except.ok.inj ho]; exact ⟨k1, k2⟩
        · rw [← Except.ok.inj ho]; exact ⟨k1, k2⟩

/-- C108: without randoms, a survey or a box that is not periodic is a ValueError, whatever else the arguments are. -/
theorem no_randoms (e : Env) (g : Args) (hr : g.randoms1 = none) (hp : periodicOf g ≠ some true) : new e g = .error .valueError := by
  have : isAnalytic g = false := by simp [isAnalytic, hp]
  simp [new, runBase, this, hr, Except.bind]

/-- C108: for a cross-correlation without second randoms the first ones are used. -/
theorem default_randoms (e : Env) (g : Args) (r : Nat) (hr : g.randoms1 = some r) :
    new e { g with randoms2 := none } = new e { g with randoms2 := some r } := by
  have h1 : ∀ x, isAnalytic { g with randoms2 := x } = false := fun x => by simp [isAnalytic, hr]
  unfold new runBase
  simp only [h1, hr]
  rfl

/-- C108: the angular correlation function with analytic randoms needs `BoxSize` among the attributes of the catalog: the keyword `BoxSize` does
not help. -/
theorem angular_needs_attr (e : Env) (g : Args) (hk : g.kind = .sim) (hp : g.periodic = true) (hr : g.randoms1 = none)
    (hm : g.bins.mode = "angular") (hb : e.boxOf g.data1 = none) : new e g = .error .keyError := by
  have ha : isAnalytic g = true := by simp [isAnalytic, periodicOf, hk, hr, hp]
  simp [new, runBase, ha, runNatural, naturalData, hm, restrict, hb, Except.bind]

/-- The object has the given dimensions and edges, with coordinates at the centers and the mask of what is not finite. -/
structure Std (de : List String × List (List ℚ)) (d : BS) : Prop where
  dims : d.dims = de.1
  edges : d.edges = de.2
  coords : d.coords = de.2.map Binned.centers
  mask : d.mask = Binned.maskOf d.shape.prod d.data
  len : de.1.length = de.2.length

theorem Std.shape {de : List String × List (List ℚ)} {d : BS} (h : Std de d) : d.shape = de.2.map fun e => e.length - 1 := by
  rw [Binned.BS.shape, h.coords]; simp [Binned.centers_length, Function.comp_def]

theorem make_std {de : List String × List (List ℚ)} {shape : List Nat} {data : List Binned.Col} {fts : List String} {a : Option ℚ} {b : BS}
    (h : make de.1 de.2 shape data fts a = .ok b) : Std de b ∧ b.data = data ∧ b.fts = fts ∧ b.attrs = a := by
  obtain ⟨h1, h2, rfl⟩ := (make_iff _ _ _ _ _ _ _).mp h
  refine ⟨⟨rfl, rfl, rfl, ?_, h1⟩, rfl, rfl, rfl⟩
  simp [Binned.BS.shape, h2, Binned.centers_length, Function.comp_def]

theorem wedge_std {de : List String × List (List ℚ)} {d : BS} (h : Std de d) : wedge de.1 de.2 (some (arr d)) = .ok (some (bare d)) := by
  unfold wedge arr
  dsimp only
  rw [(make_iff _ _ _ _ _ _ _).mpr ⟨h.len, h.shape, rfl⟩]
  simp only [Except.bind, bare, h.coords, ← h.mask, ← h.dims, ← h.edges]

theorem wedge_opt {de : List String × List (List ℚ)} {d : Option BS} (h : ∀ x, d = some x → Std de x) :
    wedge de.1 de.2 (d.map arr) = .ok (d.map bare) := by
  cases d with
  | none => rfl
  | some d => exact wedge_std (h d rfl)

theorem counted_std {e : Env} {c : Counter} {b : Bins} {i : Nat} {j : Option Nat} {r : Count × BS} (h : counted e c b i j = .ok r) :
    ∃ md de, Pairs.checkArgs b.mode b.edges b.Nmu b.pimax = .ok md ∧ stateBins b = .ok de ∧ Std de r.2 ∧ e.count c b i j = .ok r.1 ∧
      r.2.fts = ["npairs", "wnpairs"] ∧ r.2.attrs = some r.1.total ∧ r.2.data = pairsData (de.1.headD "") r.1 ∧ de.2.head? = some b.edges ∧
      (∀ e ∈ de.2, e ≠ []) ∧ de.1.Nodup := by
  unfold counted at h
  split at h
  · cases h
  rename_i md hck
  cases hx : e.count c b i j with
  | error _ => simp [hx, Except.bind] at h
  | ok x =>
    obtain ⟨p, h1, h2, h3, h4, h5, h6, h7, h8, h9, h10, h11, h12⟩ := pairs_spec c b x md hck
    simp only [hx, h1, Except.bind, Except.ok.injEq] at h
    subst h
    exact ⟨md, (p.dims, p.edges), hck, h2, ⟨rfl, rfl, h3, h5, h9⟩, rfl, h7, h6, h4, h10, h11, h12⟩

theorem corr_std {de : List String × List (List ℚ)} {d r : BS} (hd : Std de d) {cf : List (Option ℚ)} (h : corrOf d cf = .ok r) :
    Std de r ∧ r.data = [⟨"corr", false, cf.map val⟩, ⟨de.1.headD "", false, columnOf d (de.1.headD "")⟩] ∧ r.fts = [] := by
  unfold corrOf at h
  dsimp only at h
  rw [hd.dims, hd.edges] at h
  obtain ⟨h1, h2, h3, -⟩ := make_std h
  exact ⟨h1, h2, h3⟩

theorem analytic_std {de : List String × List (List ℚ)} {d r : BS} (hd : Std de d) {rr : ℚ × List ℚ} (h : analyticPairs d rr = .ok r) :
    Std de r ∧ columnOf r "npairs" = rr.2.map .fin ∧ r.attrs = some rr.1 := by
  unfold analyticPairs at h
  rw [hd.dims, hd.edges] at h
  cases hm : make de.1 de.2 d.shape [⟨"npairs", false, rr.2.map .fin⟩, ⟨"wnpairs", false, rr.2.map .fin⟩] [] none with
  | error _ => simp [hm, Except.bind] at h
  | ok p =>
    simp only [hm, Except.bind, Except.ok.injEq] at h
    obtain ⟨h1, h2, -⟩ := make_std hm
    subst h
    exact ⟨⟨h1.dims, h1.edges, h1.coords, h1.mask, h1.len⟩, by simp [columnOf, h2], rfl⟩

/-- What the two estimators make. -/
theorem run_std {e : Env} {g : Args} {o : Tpcf} (h : runBase e g = .ok o) :
    ∃ de, stateBins g.bins = .ok de ∧ Std de o.D1D2 ∧ (∀ d, o.D1R2 = some d → Std de d) ∧ (∀ d, o.D2R1 = some d → Std de d) ∧ Std de o.corr ∧
      (isAnalytic g = true ∨ g.R1R2 = none → ∀ d, o.R1R2 = some d → Std de d) ∧ o.bins = g.bins ∧ o.wp = none ∧
      (∃ md, Pairs.checkArgs g.bins.mode g.bins.edges g.bins.Nmu g.bins.pimax = .ok md) ∧ o.D1D2.fts = ["npairs", "wnpairs"] ∧
      o.corr.data.map Binned.Col.name = ["corr", de.1.headD ""] ∧ (∀ c ∈ o.corr.data, c.int = false) ∧ de.2.head? = some g.bins.edges ∧
      (∀ e ∈ de.2, e ≠ []) ∧ de.1.Nodup := by
  unfold runBase at h
  split at h
  · rename_i ha
    unfold runNatural at h
    cases h1 : naturalData e g with
    | error _ => simp [h1, Except.bind] at h
    | ok ds =>
      cases h2 : counted e (counterOf g) g.bins ds.1 ds.2 with
      | error _ => simp [h1, h2, Except.bind] at h
      | ok dd =>
        simp only [h1, h2, Except.bind] at h
        split at h
        · cases h
        rename_i rr hrr
        split at h
        · cases h
        rename_i cf hcf
        have h := (Except.ok.inj h).symm
        obtain ⟨md, de, k1, k2, k3, k4, k5, k6, k7, k8, k9, k10⟩ := counted_std h2
        obtain ⟨c1, c2, c3⟩ := corr_std k3 hcf
        obtain ⟨a1, -⟩ := analytic_std k3 hrr
        subst h
        refine ⟨de, k2, k3, by simp, by simp, c1, ?_, rfl, rfl, ⟨md, k1⟩, k5, by simp [c2], by simp [c2], k8, k9, k10⟩
        rintro - d hd
        simp only [Option.some.injEq] at hd
        exact hd ▸ a1
  · rename_i ha
    split at h
    · cases h
    rename_i r1 hr1
    unfold runLS at h
    dsimp only at h
    cases h1 : randomPairs e g r1 (g.randoms2.getD r1) with
    | error _ => simp [h1, Except.bind] at h
    | ok rr =>
      cases h2 : counted e (counterOf g) g.bins g.data1 g.data2 with
      | error _ => simp [h1, h2, Except.bind] at h
      | ok dd =>
        cases h3 : counted e (counterOf g) g.bins g.data1 (some (g.randoms2.getD r1)) with
        | error _ => simp [h1, h2, h3, Except.bind] at h
        | ok dr =>
          cases h4 : secondPairs e g r1 dr with
          | error _ => simp [h1, h2, h3, h4, Except.bind] at h
          | ok rd =>
            simp only [h1, h2, h3, h4, Except.bind] at h
            split at h
            · cases h
            rename_i hsh
            split at h
            · cases h
            rename_i cf hcf
            have h := (Except.ok.inj h).symm
            obtain ⟨md, de, k1, k2, k3, k4, k5, k6, k7, k8, k9, k10⟩ := counted_std h2
            obtain ⟨c1, c2, c3⟩ := corr_std k3 hcf
            have same : ∀ {c : Counter} {i : Nat} {j : Option Nat} {r : Count × BS}, counted e c g.bins i j = .ok r → Std de r.2 := by
              intro c i j r hr
              obtain ⟨_, de', _, q2, q3, _⟩ := counted_std hr
              rw [k2] at q2
              exact (Except.ok.inj q2) ▸ q3
            subst h
            refine ⟨de, k2, k3, ?_, ?_, c1, ?_, rfl, rfl, ⟨md, k1⟩, k5, by simp [c2], by simp [c2], k8, k9, k10⟩
            · intro d hd; simp only [Option.some.injEq] at hd; exact hd ▸ same h3
            · intro d hd
              simp only [Option.some.injEq] at hd
              subst hd
              unfold secondPairs at h4
              cases hd2 : g.data2 with
              | none => rw [hd2] at h4; exact (Except.ok.inj h4) ▸ same h3
              | some d2 => rw [hd2] at h4; exact same h4
            · intro hR d hd
              simp only [Option.some.injEq] at hd
              subst hd
              rcases hR with hR | hR
              · exact absurd hR ha
              · unfold randomPairs at h1
                rw [hR] at h1
                dsimp only at h1
                cases h5 : counted e (counterOf g) g.bins r1 (some (g.randoms2.getD r1)) with
                | error _ => simp [h5, Except.bind] at h1
                | ok x =>
                  simp only [h5, Except.bind, Except.ok.injEq] at h1
                  rw [← h1]
                  exact same h5

/-- The coordinates of an average are the centers of its bins. -/
theorem average_coords {A : Type} {oldNumpy : Bool} {world : Binned.World} {b r : Binned.BS A} {dim : String} {w : Binned.Weights} {force : Bool}
    {arg : Option (List String)} (h : (Binned.averageCall oldNumpy world b dim w force arg).2.2 = .ok r) :
    r.coords = r.edges.map Binned.centers := by
  unfold Binned.averageCall at h
  split at h
  · cases h
  dsimp only at h
  simp only [bind, Except.bind] at h
  split at h
  · cases h
  split at h
  · cases h
  split at h
  · cases h
  split at h
  · cases h
  rename_i s hs
  have h1 : s.coords = s.edges.map Binned.centers := by
    unfold Binned.take Binned.finalize at hs
    simp only [bind, Except.bind, pure, Except.pure] at hs
    repeat' (first | (split at hs; first | cases hs | skip) | skip)
    all_goals (have := (Except.ok.inj hs).symm; subst this; rfl)
  unfold Binned.squeeze at h
  dsimp only at h
  split at h
  · cases h
  split at h
  · cases h
  split at h
  · cases h
  have := (Except.ok.inj h).symm
  subst this
  simp [h1, List.eraseIdx_map]

theorem diff_length (l : List ℚ) : (Estim.diff l).length = l.length - 1 := by simp [Estim.diff]

theorem outerDiff_length (v : ℚ) (f g : List ℚ) : (Estim.outerDiff v f g).flatten.length = (f.length - 1) * (g.length - 1) := by
  unfold Estim.outerDiff
  dsimp only
  rw [List.length_flatten, List.map_map]
  have : ∀ x ∈ List.zipWith (fun v w => List.zipWith (fun a b : ℚ => b - a) v w) (f.map fun a => g.map fun b => a * b)
      (f.map fun a => g.map fun b => a * b).tail, (List.length ∘ fun row => (Estim.diff row).map fun x => x / v) x = g.length - 1 := by
    intro x hx
    rw [← List.map_uncurry_zip_eq_zipWith, List.mem_map] at hx
    obtain ⟨⟨p, q⟩, hpq, rfl⟩ := hx
    have hp := (List.of_mem_zip hpq).1
    have hq := List.mem_of_mem_tail (List.of_mem_zip hpq).2
    rw [List.mem_map] at hp hq
    obtain ⟨a, _, rfl⟩ := hp
    obtain ⟨a', _, rfl⟩ := hq
    simp [diff_length]
  rw [List.map_congr_left this, List.map_const', List.sum_replicate]
  simp

theorem filling_length {b : Bins} {de : List String × List (List ℚ)} (hb : stateBins b = .ok de) (e : Env) (box : List ℚ) :
    (filling e b.mode de.2 box).length = (de.2.map fun e => e.length - 1).prod := by
  have n12 : ¬ ("2d" = "1d") := by decide
  have np1 : ¬ ("projected" = "1d") := by decide
  have np2 : ¬ ("projected" = "2d") := by decide
  have na1 : ¬ ("angular" = "1d") := by decide
  have na2 : ¬ ("angular" = "2d") := by decide
  have nap : ¬ ("angular" = "projected") := by decide
  unfold stateBins at hb
  split at hb
  · rename_i hm
    obtain rfl := Except.ok.inj hb
    simp [filling, hm, Estim.ff1d, diff_length]
  · split at hb
    · rename_i hm
      split at hb
      · obtain rfl := Except.ok.inj hb
        have := fun v f g => outerDiff_length v f g
        simp only [filling, hm, n12, if_true, if_false, Estim.ff2d, outerDiff_length]
        simp
      · cases hb
    · split at hb
      · rename_i hm
        split at hb
        · obtain rfl := Except.ok.inj hb
          simp only [filling, hm, np1, np2, if_true, if_false, Estim.ffProj, outerDiff_length]
          simp
        · cases hb
      · split at hb
        · rename_i hm
          obtain rfl := Except.ok.inj hb
          simp [filling, hm, na1, na2, nap, diff_length]
        · cases hb

/-- The random pairs of the caller have columns of the size of their bins. -/
def GivenSized (g : Args) : Prop := ∀ o, g.R1R2 = some o → (columnOf o.pairs "npairs").length = o.pairs.shape.prod ∧
  (columnOf o.pairs "wnpairs").length = o.pairs.shape.prod

theorem sized_rows {e : Env} {c : Counter} {b : Bins} {i : Nat} {j : Option Nat} {r : Count × BS} (hs : Sized e b) (h : counted e c b i j = .ok r)
    {de : List String × List (List ℚ)} (hb : stateBins b = .ok de) : r.1.rows.length = (de.2.map fun e => e.length - 1).prod ∧
      (columnOf r.2 (de.1.headD "")).length = (de.2.map fun e => e.length - 1).prod := by
  obtain ⟨md, de', k1, k2, k3, k4, k5, k6, k7, k8⟩ := counted_std h
  rw [hb] at k2
  obtain rfl := Except.ok.inj k2
  obtain ⟨s1, s2⟩ := hs c i j r.1 k4 de.1 de.2 hb
  refine ⟨s2, ?_⟩
  rw [columnOf, k7]
  simpa [pairsData] using s1

theorem corr_sized {e : Env} {g : Args} {o : Tpcf} (hs : Sized e g.bins) (hg : GivenSized g) (h : runBase e g = .ok o) :
    ∀ c ∈ o.corr.data, c.vals.length = o.corr.shape.prod := by
  unfold runBase at h
  split at h
  · unfold runNatural at h
    cases h1 : naturalData e g with
    | error _ => simp [h1, Except.bind] at h
    | ok ds =>
      cases h2 : counted e (counterOf g) g.bins ds.1 ds.2 with
      | error _ => simp [h1, h2, Except.bind] at h
      | ok dd =>
        simp only [h1, h2, Except.bind] at h
        split at h
        · cases h
        split at h
        · cases h
        rename_i cf hcf
        have h := (Except.ok.inj h).symm
        obtain ⟨md, de, k1, k2, k3, -⟩ := counted_std h2
        obtain ⟨c1, c2, c3⟩ := corr_std k3 hcf
        obtain ⟨r1, r2⟩ := sized_rows hs h2 k2
        subst h
        dsimp only
        rw [c2, c1.shape]
        intro c hc
        simp only [List.mem_cons, List.not_mem_nil, or_false] at hc
        have hf := filling_length k2 e (g.box.getD ((e.boxOf ds.1).getD [0, 0, 0]))
        rcases hc with rfl | rfl
        · rw [List.length_map]
          unfold Estim.natural
          dsimp only
          rw [List.length_map, List.length_zip, k3.edges]
          have ha : ∀ (ff : List ℚ) (n : ℚ) (m : Option ℚ), (Estim.analytic ff n m).2.length = ff.length := by
            intro ff n m; cases m <;> simp [Estim.analytic]
          rw [ha, hf]
          simp [Count.pc, r1]
        · exact r2
  · split at h
    · cases h
    rename_i r1 hr1
    unfold runLS at h
    dsimp only at h
    cases h1 : randomPairs e g r1 (g.randoms2.getD r1) with
    | error _ => simp [h1, Except.bind] at h
    | ok rr =>
      cases h2 : counted e (counterOf g) g.bins g.data1 g.data2 with
      | error _ => simp [h1, h2, Except.bind] at h
      | ok dd =>
        cases h3 : counted e (counterOf g) g.bins g.data1 (some (g.randoms2.getD r1)) with
        | error _ => simp [h1, h2, h3, Except.bind] at h
        | ok dr =>
          cases h4 : secondPairs e g r1 dr with
          | error _ => simp [h1, h2, h3, h4, Except.bind] at h
          | ok rd =>
            simp only [h1, h2, h3, h4, Except.bind] at h
            split at h
            · cases h
            rename_i hsh
            split at h
            · cases h
            rename_i cf hcf
            have h := (Except.ok.inj h).symm
            obtain ⟨md, de, k1, k2, k3, -⟩ := counted_std h2
            obtain ⟨c1, c2, c3⟩ := corr_std k3 hcf
            obtain ⟨q1, q2⟩ := sized_rows hs h2 k2
            obtain ⟨q3, -⟩ := sized_rows hs h3 k2
            have q4 : rd.1.rows.length = (de.2.map fun e => e.length - 1).prod := by
              unfold secondPairs at h4
              cases hd2 : g.data2 with
              | none => rw [hd2] at h4; exact (Except.ok.inj h4) ▸ q3
              | some d2 => rw [hd2] at h4; exact (sized_rows hs h4 k2).1
            have q5 : rr.1.rows.length = (de.2.map fun e => e.length - 1).prod := by
              unfold randomPairs at h1
              cases hR : g.R1R2 with
              | none =>
                rw [hR] at h1
                dsimp only at h1
                cases h5 : counted e (counterOf g) g.bins r1 (some (g.randoms2.getD r1)) with
                | error _ => simp [h5, Except.bind] at h1
                | ok x =>
                  simp only [h5, Except.bind, Except.ok.injEq] at h1
                  rw [← h1]
                  exact (sized_rows hs h5 k2).1
              | some p =>
                rw [hR] at h1
                obtain rfl := Except.ok.inj h1
                obtain ⟨g1, g2⟩ := hg p hR
                simp only [ne_eq, not_not] at hsh
                rw [k3.shape] at hsh
                simp [givenPC, g1, g2, hsh]
            subst h
            dsimp only
            rw [c2, c1.shape]
            intro c hc
            simp only [List.mem_cons, List.not_mem_nil, or_false] at hc
            rcases hc with rfl | rfl
            · simp [q1, q3, q4, q5]
            · exact q2

/-- C108: a projected correlation function has as `wp` an object over the same bins of `rp` whose values are the sums `2 xi dpi` along the
line of sight, if there are two bins at least along it; with a single one (`pimax < 2`) the class always fails. -/
theorem wp_spec (e : Env) (g : Args) (hs : Sized e g.bins) (hg : GivenSized g) (hm : g.bins.mode = "projected") (pm : ℚ)
    (hp : g.bins.pimax = some pm) (h2 : 2 ≤ g.bins.edges.length) :
    (pm < 2 → ∀ o, new e g ≠ .ok o) ∧
    ∀ o, runBase e g = .ok o → 2 ≤ pm → ∃ w, new e g = .ok { o with wp := some (some w) } ∧ w.dims = ["rp"] ∧ w.edges = [g.bins.edges] ∧
      w.coords = [Binned.centers g.bins.edges] ∧ w.fts = [] ∧
      columnOf w "corr" = (rowsOf (g.bins.edges.length - 1) ⌊pm⌋.toNat ((columnOf o.corr "corr").map Binned.Val.rat?)).map fun row =>
        val (Estim.wp row (o.corr.edges.getD 1 [])) := by
  have np1 : ¬ ("projected" = "1d") := by decide
  have np2 : ¬ ("projected" = "2d") := by decide
  have key : ∀ o, runBase e g = .ok o → 1 ≤ pm ∧ Binned.WF o.corr ∧ o.corr.dims = ["rp", "pi"] ∧
      o.corr.edges = [g.bins.edges, linspace 0 pm (⌊pm⌋.toNat + 1)] ∧ o.corr.shape = [g.bins.edges.length - 1, ⌊pm⌋.toNat] ∧
      (∀ c ∈ o.corr.data, c.int = false) ∧ o.corr.coords = o.corr.edges.map Binned.centers ∧ o.corr.fts = [] ∧
      o.corr.data.map Binned.Col.name = ["corr", "rp"] := by
    intro o ho
    obtain ⟨de, k1, k2, -, -, k5, -, -, -, ⟨md, k8⟩, -, k10, k11, k12, k13, k14⟩ := run_std ho
    have h1 : 1 ≤ pm := by
      have := (Pairs.checkArgs_iff g.bins.mode g.bins.edges g.bins.Nmu g.bins.pimax).mp ⟨md, k8⟩
      exact this.2.2.2.2.2 pm hp
    have hst : stateBins g.bins = .ok (["rp", "pi"], [g.bins.edges, linspace 0 pm (⌊pm⌋.toNat + 1)]) := by
      simp only [stateBins, hm, hp, np1, np2, if_true, if_false, floor_succ pm (by linarith)]
    rw [hst] at k1
    obtain rfl := Except.ok.inj k1
    have hsh := k5.shape
    simp only [List.map_cons, List.map_nil] at hsh
    have hlen : (linspace 0 pm (⌊pm⌋.toNat + 1)).length - 1 = ⌊pm⌋.toNat := by simp [linspace]
    rw [hlen] at hsh
    have hf : o.corr.fts = [] := by
      unfold runBase at ho
      split at ho
      · unfold runNatural at ho
        cases h1 : naturalData e g with
        | error _ => simp [h1, Except.bind] at ho
        | ok ds =>
          cases h2 : counted e (counterOf g) g.bins ds.1 ds.2 with
          | error _ => simp [h1, h2, Except.bind] at ho
          | ok dd =>
            simp only [h1, h2, Except.bind] at ho
            split at ho
            · cases ho
            split at ho
            · cases ho
            rename_i cf hcf
            obtain ⟨_, de, _, _, q3, -⟩ := counted_std h2
            rw [← Except.ok.inj ho]
            exact (corr_std q3 hcf).2.2
      · split at ho
        · cases ho
        rename_i r1 hr1
        unfold runLS at ho
        dsimp only at ho
        cases h1 : randomPairs e g r1 (g.randoms2.getD r1) with
        | error _ => simp [h1, Except.bind] at ho
        | ok rr =>
          cases h2 : counted e (counterOf g) g.bins g.data1 g.data2 with
          | error _ => simp [h1, h2, Except.bind] at ho
          | ok dd =>
            cases h3 : counted e (counterOf g) g.bins g.data1 (some (g.randoms2.getD r1)) with
            | error _ => simp [h1, h2, h3, Except.bind] at ho
            | ok dr =>
              cases h4 : secondPairs e g r1 dr with
              | error _ => simp [h1, h2, h3, h4, Except.bind] at ho
              | ok rd =>
                simp only [h1, h2, h3, h4, Except.bind] at ho
                split at ho
                · cases ho
                split at ho
                · cases ho
                rename_i cf hcf
                obtain ⟨_, de, _, _, q3, -⟩ := counted_std h2
                rw [← Except.ok.inj ho]
                exact (corr_std q3 hcf).2.2
    have hwf : Binned.WF o.corr := by
      refine ⟨by rw [k5.dims]; exact k14, by rw [k5.dims, k5.edges]; rfl, by rw [k5.dims, k5.coords]; rfl, ?_, corr_sized hs hg ho, ?_⟩
      · intro i ed c hi hc
        rw [k5.edges] at hi
        rw [k5.coords] at hc
        rw [List.getElem?_map, hi] at hc
        simp only [Option.map_some, Option.some.injEq] at hc
        rw [← hc, Binned.centers_length]
        have := k13 ed (List.mem_of_getElem? hi)
        have := List.length_pos_iff.mpr this
        omega
      · rw [k5.mask]; simp [Binned.maskOf]
    exact ⟨h1, hwf, k5.dims, k5.edges, hsh, k11, by rw [k5.coords, k5.edges], hf, k10⟩
  constructor
  · intro hlt o ho
    unfold new at ho
    cases hr : runBase e g with
    | error _ => simp [hr, Except.bind] at ho
    | ok r =>
      obtain ⟨h1, hwf, hd, he, hsh, -⟩ := key r hr
      have hfl : ⌊pm⌋ = 1 := by
        rw [Int.floor_eq_iff]; constructor
        · simpa using h1
        · norm_num; exact hlt
      have : Estim.wpObject e.oldNumpy e.world r.corr = .error .indexError := by
        unfold Estim.wpObject
        rw [hd]
        exact Binned.average_single e.oldNumpy e.world r.corr hwf "pi" .none true none 1 (by rw [hd]; rfl) (by rw [hsh, hfl]; rfl)
      simp [hr, Except.bind, hm, computeWp, this, lift] at ho
  · intro o ho hge
    obtain ⟨h1, hwf, hd, he, hsh, hint, hco, hft, hnm⟩ := key o ho
    have hf2 : 2 ≤ ⌊pm⌋ := Int.le_floor.mpr (by simpa using hge)
    obtain ⟨n, hn⟩ : ∃ n, ⌊pm⌋.toNat = n := ⟨_, rfl⟩
    have hn2 : 2 ≤ n := by omega
    rw [hn] at he hsh ⊢
    have hlen : (linspace 0 pm (n + 1)).length = n + 1 := by simp [linspace]
    have hev : Binned.EvenEdges (linspace 0 pm (n + 1)) := by
      refine ⟨0, pm / n, by have : (0:ℚ) < n := by exact_mod_cast (by omega : 0 < n)
                            positivity, ?_⟩
      intro k x hx
      unfold linspace at hx
      rw [List.getElem?_map] at hx
      cases hk : (List.range (n + 1))[k]? with
      | none => simp [hk] at hx
      | some j =>
        have hj : j = k := by
          obtain ⟨hlt, heq⟩ := List.getElem?_eq_some_iff.mp hk
          simpa using heq.symm
        subst hj
        rw [hk] at hx
        simp only [Option.map_some, Option.some.injEq] at hx
        rw [← hx]; simp
    have hlast : (linspace 0 pm (n + 1)).getLastD 0 = (linspace 0 pm (n + 1)).getD n 0 := by
      rw [List.getLastD_eq_getLast?, List.getLast?_eq_getElem?, hlen, List.getD_eq_getElem?_getD]
      simp
    have hargs : Binned.ReindexArgs e.oldNumpy o.corr "pi" ((linspace 0 pm (n + 1)).getLastD 0 - (linspace 0 pm (n + 1)).getD 0 0) .none true
        (e.world.dflt ++ o.corr.fts) 1 n n := by
      refine ⟨by rw [hd]; rfl, by rw [hsh]; rfl, hn2, le_refl _, ?_, by simp, ?_, ⟨none, rfl, by simp⟩⟩
      · intro c0 c1 cs hc
        rw [hco, he] at hc
        simp only [List.map_cons, List.map_nil, List.getElem?_cons_succ, List.getElem?_cons_zero, Option.some.injEq] at hc
        rw [hlast]
        rcases Binned.even_factor (linspace 0 pm (n + 1)) _ hev rfl n c0 c1 cs hc with h | h
        · exact h
        · omega
      · rw [hsh]; intro d hd'
        simp only [List.mem_cons, List.not_mem_nil, or_false] at hd'
        omega
    obtain ⟨r, r1, r2, r3, r4, r5, r6, r7, r8, r9⟩ := Binned.average_partial e.oldNumpy e.world o.corr hwf "pi" .none true e.world.dflt 1 n
      (linspace 0 pm (n + 1)) (by rw [he]; rfl) hargs (by rw [hd]; simp) none rfl
      (fun c hc => fun hi => by rw [hint c hc] at hi; cases hi)
    have hwp : Estim.wpObject e.oldNumpy e.world o.corr = .ok r := by
      have hsame : (Binned.averageCall e.oldNumpy e.world o.corr "pi" .none true none).2.2 =
          (Binned.averageCall e.oldNumpy e.world o.corr "pi" .none true (some e.world.dflt)).2.2 := by
        unfold Binned.averageCall Binned.reindexCall
        rw [hd]
        rfl
      unfold Estim.wpObject
      rw [← r1, ← hsame, hd]
      rfl
    have hrc := average_coords r1
    rw [hd] at r3
    rw [he] at r4
    rw [hsh] at r5
    simp only [List.eraseIdx_cons_succ, List.eraseIdx_zero, List.tail_cons] at r3 r4 r5
    have hrows : (rowsOf (g.bins.edges.length - 1) n ((columnOf o.corr "corr").map Binned.Val.rat?)).length = g.bins.edges.length - 1 := by
      simp [rowsOf]
    refine ⟨⟨["rp"], [g.bins.edges], [Binned.centers g.bins.edges], r.data.eraseP (fun c => c.name = "corr") ++
      [⟨"corr", false, (rowsOf (g.bins.edges.length - 1) n ((columnOf o.corr "corr").map Binned.Val.rat?)).map fun row => val (Estim.wp row (o.corr.edges.getD 1 []))⟩],
      (List.range (g.bins.edges.length - 1)).map fun k => r.mask.getD k false || !((((rowsOf (g.bins.edges.length - 1) n ((columnOf o.corr "corr").map Binned.Val.rat?)).map fun row => val (Estim.wp row (o.corr.edges.getD 1 []))).getD k .nan).isFinite), r.attrs, r.fts⟩,
      ?_, rfl, rfl, rfl, by rw [r7, hft], ?_⟩
    · unfold new
      rw [ho]
      simp only [Except.bind, hm, if_true, computeWp, hwp, lift]
      simp only [he, List.headD_cons, hlen, Nat.add_sub_cancel]
      have hg1 : ([g.bins.edges, linspace 0 pm (n + 1)] : List (List ℚ)).getD 1 [] = linspace 0 pm (n + 1) := rfl
      rw [hg1, hlen, Nat.add_sub_cancel]
      unfold Binned.setitem
      rw [r5]
      simp only [List.map_map, List.length_map, hrows, List.prod_cons, List.prod_nil, mul_one, ne_eq, not_true_eq_false, if_false]
      rw [hrc, r3, r4]
      rfl
    · unfold columnOf
      dsimp only
      rw [List.find?_append]
      have hnone : (r.data.eraseP fun c => decide (c.name = "corr")).find? (fun c => decide (c.name = "corr")) = none := by
        have hrn : r.data.map Binned.Col.name = ["corr", "rp"] := by
          rw [← hnm]
          apply List.ext_getElem (by simp [r8])
          intro k hk hk'
          simp only [List.length_map] at hk hk'
          obtain ⟨c', q1, q2, -⟩ := r9 k _ (List.getElem?_eq_getElem hk')
          rw [List.getElem?_eq_getElem hk, Option.some.injEq] at q1
          simp [q1, q2]
        obtain ⟨a, b, hab⟩ := List.length_eq_two.mp (by simpa using congrArg List.length hrn)
        rw [hab] at hrn ⊢
        simp only [List.map_cons, List.map_nil, List.cons.injEq, and_true] at hrn
        have : ¬ ("rp" = "corr") := by decide
        simp [List.eraseP_cons, hrn.1, hrn.2, this]
      rw [hnone]
      simp

/-! ## Values -/

theorem run_of_new {e : Env} {g : Args} {o : Tpcf} (h : new e g = .ok o) :
    ∃ r, runBase e g = .ok r ∧ o.bins = r.bins ∧ o.D1D2 = r.D1D2 ∧ o.D1R2 = r.D1R2 ∧ o.D2R1 = r.D2R1 ∧ o.R1R2 = r.R1R2 ∧ o.corr = r.corr ∧
      ((g.bins.mode ≠ "projected" ∧ o.wp = none) ∨ (g.bins.mode = "projected" ∧ ∃ w, computeWp e r.corr = .ok w ∧ o.wp = some (some w))) := by
  unfold new at h
  cases hr : runBase e g with
  | error _ => simp [hr, Except.bind] at h
  | ok r =>
    simp only [hr, Except.bind] at h
    split at h
    · rename_i hm
      split at h
      · cases h
      · rename_i w hw
        rw [← Except.ok.inj h]
        exact ⟨r, rfl, rfl, rfl, rfl, rfl, rfl, rfl, Or.inr ⟨hm, w, hw, rfl⟩⟩
    · rename_i hm
      obtain rfl := Except.ok.inj h
      refine ⟨r, rfl, rfl, rfl, rfl, rfl, rfl, rfl, Or.inl ⟨hm, ?_⟩⟩
      exact (run_std hr).choose_spec.2.2.2.2.2.2.2.1

/-- C108: with randoms, the correlation function is the Landy-Szalay estimator of the counts of the catalogs. -/
theorem ls_spec (e : Env) (g : Args) (r1 : Nat) (hr : g.randoms1 = some r1) (o : Tpcf) (h : new e g = .ok o)
    (count : Nat → Option Nat → Estim.PC)
    (hc : ∀ i j x, e.count (counterOf g) g.bins i j = .ok x → count i j = ⟨x.total, x.rows⟩) :
    columnOf o.corr "corr" = (Estim.landySzalay count g.data1 g.data2 r1 g.randoms2 (g.R1R2.map givenPC)).cf.map val := by
  obtain ⟨r, h0, -, -, -, -, -, hcorr, -⟩ := run_of_new h
  rw [hcorr]
  unfold runBase at h0
  rw [if_neg (by simp [isAnalytic, hr]), hr] at h0
  unfold runLS at h0
  dsimp only at h0
  have hcount : ∀ {i : Nat} {j : Option Nat} {x : Count × BS}, counted e (counterOf g) g.bins i j = .ok x → count i j = ⟨x.1.total, x.1.rows⟩ := by
    intro i j x hx
    obtain ⟨_, _, _, _, _, k4, -⟩ := counted_std hx
    exact hc _ _ _ k4
  cases h1 : randomPairs e g r1 (g.randoms2.getD r1) with
  | error _ => simp [h1, Except.bind] at h0
  | ok rr =>
    cases h2 : counted e (counterOf g) g.bins g.data1 g.data2 with
    | error _ => simp [h1, h2, Except.bind] at h0
    | ok dd =>
      cases h3 : counted e (counterOf g) g.bins g.data1 (some (g.randoms2.getD r1)) with
      | error _ => simp [h1, h2, h3, Except.bind] at h0
      | ok dr =>
        cases h4 : secondPairs e g r1 dr with
        | error _ => simp [h1, h2, h3, h4, Except.bind] at h0
        | ok rd =>
          simp only [h1, h2, h3, h4, Except.bind] at h0
          split at h0
          · cases h0
          split at h0
          · cases h0
          rename_i cf hcf
          obtain ⟨_, de, _, _, q3, -⟩ := counted_std h2
          obtain ⟨-, c2, -⟩ := corr_std q3 hcf
          rw [← Except.ok.inj h0]
          have hrd : g.data2.elim (count g.data1 (some (g.randoms2.getD r1))) (fun d => count d (some r1)) = ⟨rd.1.total, rd.1.rows⟩ := by
            unfold secondPairs at h4
            cases hd2 : g.data2 with
            | none => rw [hd2] at h4; rw [← Except.ok.inj h4]; exact hcount h3
            | some d2 => rw [hd2] at h4; exact hcount h4
          have hrr : (g.R1R2.map givenPC).getD (count r1 (some (g.randoms2.getD r1))) = rr.1 := by
            unfold randomPairs at h1
            cases hR : g.R1R2 with
            | some p => rw [hR] at h1; rw [← Except.ok.inj h1]; rfl
            | none =>
              rw [hR] at h1
              dsimp only at h1
              cases h5 : counted e (counterOf g) g.bins r1 (some (g.randoms2.getD r1)) with
              | error _ => simp [h5, Except.bind] at h1
              | ok x =>
                simp only [h5, Except.bind, Except.ok.injEq] at h1
                rw [← h1]
                exact hcount h5
          unfold Estim.landySzalay
          dsimp only
          rw [hrd, hrr, hcount h2, hcount h3]
          simp [columnOf, c2]

/-- C108: without randoms, the correlation function in a periodic box of volume `V` in the bin of separations between `a` and `b` is
`DD / (total DD) / (RR / total RR) - 1`, where of `N` objects `RR = N^2 (4/3 pi (b^3 - a^3) / V)` and `total RR = N (N - 1) / 2`. -/
theorem natural_1d (e : Env) (g : Args) (hk : g.kind = .sim) (hp : g.periodic = true) (hr : g.randoms1 = none) (hd : g.data2 = none)
    (hm : g.bins.mode = "1d") (o : Tpcf) (h : new e g = .ok o) (x : Count) (hx : e.count .box g.bins g.data1 none = .ok x) (hcr : x.isCross = false)
    (i : Nat) (a b : ℚ) (n : Nat) (w : ℚ) (h1 : g.bins.edges[i]? = some a) (h2 : g.bins.edges[i + 1]? = some b) (h3 : x.rows[i]? = some (n, w))
    (N V : ℚ) (hN : N = e.csize g.data1) (hV : V = (g.box.getD ((e.boxOf g.data1).getD [0, 0, 0])).prod) (hne : N ≠ 0) (ht : x.total ≠ 0)
    (hff : e.pi * (b ^ 3 - a ^ 3) / V ≠ 0) :
    (columnOf o.corr "corr")[i]? = some (.fin (w / x.total * (N * (N - 1) / 2) / (N ^ 2 * (4 / 3 * e.pi * (b ^ 3 - a ^ 3) / V)) - 1)) := by
  obtain ⟨r, h0, -, -, -, -, -, hcorr, -⟩ := run_of_new h
  rw [hcorr]
  have n1a : ¬ ("1d" = "angular") := by decide
  unfold runBase at h0
  rw [if_pos (by simp [isAnalytic, periodicOf, hk, hp, hr])] at h0
  have hct : counterOf g = .box := by simp [counterOf, periodicOf, hk]
  unfold runNatural at h0
  have hnd : naturalData e g = .ok (g.data1, none) := by simp [naturalData, hm, n1a, hd]
  simp only [hnd, Except.bind, hct] at h0
  cases h2' : counted e .box g.bins g.data1 none with
  | error _ => simp [h2', Except.bind] at h0
  | ok dd =>
    obtain ⟨md, de, k1, k2, k3, k4, -⟩ := counted_std h2'
    rw [hx] at k4
    obtain rfl := Except.ok.inj k4
    simp only [h2', Except.bind, hcr] at h0
    split at h0
    · cases h0
    split at h0
    · cases h0
    rename_i cf hcf
    obtain ⟨-, c2, -⟩ := corr_std k3 hcf
    rw [← Except.ok.inj h0]
    dsimp only
    rw [columnOf, c2]
    have hst : stateBins g.bins = .ok (["r"], [g.bins.edges]) := by simp [stateBins, hm]
    rw [hst] at k2
    obtain rfl := Except.ok.inj k2
    simp only [List.find?_cons, decide_true, Option.elim_some, List.getElem?_map, hm, k3.edges]
    have hsh := Estim.ff1d_shell e.pi V g.bins.edges i a b h1 h2
    rw [hV] at hsh
    unfold Estim.natural Estim.analytic
    simp only [filling, if_true, List.headD_cons, Bool.false_eq_true, if_false, Option.elim_none]
    have hz : ∀ rows : List ℚ, rows[i]? = some (N ^ 2 * (4 / 3 * e.pi * (b ^ 3 - a ^ 3) / V)) →
        (dd.1.pc.rows.zip rows)[i]? = some ((n, w), N ^ 2 * (4 / 3 * e.pi * (b ^ 3 - a ^ 3) / V)) :=
      fun rows hrows => List.getElem?_zip_eq_some.mpr ⟨h3, hrows⟩
    rw [List.getElem?_map, hz _ (by rw [List.getElem?_map, hsh, hN, hV]; rfl)]
    rw [← hN]
    have hff' : N ^ 2 * (4 / 3 * e.pi * (b ^ 3 - a ^ 3) / V) ≠ 0 := by
      have : 4 / 3 * e.pi * (b ^ 3 - a ^ 3) / V = 4 / 3 * (e.pi * (b ^ 3 - a ^ 3) / V) := by ring
      rw [this]
      exact mul_ne_zero (pow_ne_zero 2 hne) (mul_ne_zero (by norm_num) hff)
    simp only [Option.map_some, Estim.fdiv, Count.pc, ht, if_false, bind, Option.bind, pure]
    rw [if_neg hff']
    simp only [val, Option.some.injEq, Binned.Val.fin.injEq]
    ring

/-! ## Saving and loading -/

/-- The values of an object over given bins, without metadata. -/
def relabel (dims : List String) (edges : List (List ℚ)) (b : BS) : BS :=
  ⟨dims, edges, edges.map Binned.centers, b.data, Binned.maskOf b.shape.prod b.data, none, []⟩

theorem random_shape {e : Env} {g : Args} {o : Tpcf} (h : runBase e g = .ok o) : ∀ d, o.R1R2 = some d → d.shape = o.corr.shape := by
  intro d hd
  obtain ⟨de, k1, k2, -, -, k5, k6, -⟩ := run_std h
  by_cases hg : isAnalytic g = true ∨ g.R1R2 = none
  · rw [(k6 hg d hd).shape, k5.shape]
  · push Not at hg
    obtain ⟨ha, hR⟩ := hg
    unfold runBase at h
    rw [if_neg ha] at h
    split at h
    · cases h
    rename_i r1 _
    unfold runLS at h
    dsimp only at h
    cases h1 : randomPairs e g r1 (g.randoms2.getD r1) with
    | error _ => simp [h1, Except.bind] at h
    | ok rr =>
      cases h2 : counted e (counterOf g) g.bins g.data1 g.data2 with
      | error _ => simp [h1, h2, Except.bind] at h
      | ok dd =>
        cases h3 : counted e (counterOf g) g.bins g.data1 (some (g.randoms2.getD r1)) with
        | error _ => simp [h1, h2, h3, Except.bind] at h
        | ok dr =>
          cases h4 : secondPairs e g r1 dr with
          | error _ => simp [h1, h2, h3, h4, Except.bind] at h
          | ok rd =>
            simp only [h1, h2, h3, h4, Except.bind] at h
            split at h
            · cases h
            rename_i hsh
            split at h
            · cases h
            obtain rfl := Except.ok.inj h
            dsimp only at hd k2
            rw [← Option.some.inj hd]
            rw [not_not] at hsh
            rw [hsh, k2.shape, k5.shape]

theorem wedge_relabel {dims : List String} {edges : List (List ℚ)} (hl : dims.length = edges.length) {d : BS}
    (h : d.shape = edges.map fun e => e.length - 1) : wedge dims edges (some (arr d)) = .ok (some (relabel dims edges d)) := by
  unfold wedge arr
  dsimp only
  rw [(make_iff _ _ _ _ _ _ _).mpr ⟨hl, h, rfl⟩]
  simp only [Except.bind, relabel, h]

/-- C108: `load` of what `save` wrote returns the pair counts and the correlation function without metadata and with no columns to be summed. The
random pairs have the bins of the correlation function, whatever theirs were; those that were counted here had these bins. -/
theorem saveLoad_partial (e : Env) (g : Args) (o : Tpcf) (h : new e g = .ok o)
    (hw : g.bins.mode = "projected" → Sized e g.bins ∧ GivenSized g ∧ 2 ≤ g.bins.edges.length) :
    ∃ l, saveLoad o = .ok l ∧ l.bins = g.bins ∧ l.D1D2 = some (bare o.D1D2) ∧ l.D1R2 = o.D1R2.map bare ∧ l.D2R1 = o.D2R1.map bare ∧
      l.corr = bare o.corr ∧ l.R1R2 = o.R1R2.map (relabel o.corr.dims o.corr.edges) ∧
      (isAnalytic g = true ∨ g.R1R2 = none → l.R1R2 = o.R1R2.map bare) ∧
      (g.bins.mode ≠ "projected" → o.wp = none ∧ l.wp = none) ∧
      (g.bins.mode = "projected" → ∃ w, o.wp = some (some w) ∧ l.wp = some (relabel w.dims w.edges w) ∧ w.dims = ["rp"] ∧ w.edges = [g.bins.edges]) := by
  obtain ⟨r, hr, q1, q2, q3, q4, q5, q6, q7⟩ := run_of_new h
  obtain ⟨de, k1, k2, k3, k4, k5, k6, k7, k8, ⟨md, k9⟩, -, -, -, k13, k14, k15⟩ := run_std hr
  have hR := random_shape hr
  have hR' : wedge de.1 de.2 (r.R1R2.map arr) = .ok (r.R1R2.map (relabel de.1 de.2)) := by
    cases hd : r.R1R2 with
    | none => rfl
    | some d => exact wedge_relabel k5.len ((hR d hd).trans k5.shape)
  have hbare : isAnalytic g = true ∨ g.R1R2 = none → r.R1R2.map (relabel de.1 de.2) = r.R1R2.map bare := by
    intro hg
    have := wedge_opt (k6 hg)
    rw [hR'] at this
    exact Except.ok.inj this
  have hcorr : make de.1 de.2 r.corr.shape r.corr.data [] none = .ok (bare r.corr) := by
    rw [(make_iff _ _ _ _ _ _ _).mpr ⟨k5.len, k5.shape, rfl⟩]
    simp only [bare, k5.coords, ← k5.mask, ← k5.dims, ← k5.edges]
  have hwp : ∃ w', wedge (de.1.take 1) (de.2.take 1) (o.wp.join.map arr) = .ok w' ∧ (g.bins.mode ≠ "projected" → o.wp = none ∧ w' = none) ∧
      (g.bins.mode = "projected" → ∃ w, o.wp = some (some w) ∧ w' = some (relabel w.dims w.edges w) ∧ w.dims = ["rp"] ∧ w.edges = [g.bins.edges]) := by
    rcases q7 with ⟨hm, hn⟩ | ⟨hm, w, hw1, hw2⟩
    · refine ⟨none, by rw [hn]; rfl, fun _ => ⟨hn, rfl⟩, fun h => absurd h hm⟩
    · obtain ⟨s1, s2, s3⟩ := hw hm
      have np1 : ¬ ("projected" = "1d") := by decide
      have np2 : ¬ ("projected" = "2d") := by decide
      obtain ⟨pm, hpm, h1⟩ : ∃ pm, g.bins.pimax = some pm ∧ 1 ≤ pm := by
        rcases (accepted k9).1 with h | ⟨h, -⟩ | ⟨-, p, hp, hp1⟩ | h
        · exact absurd (hm.symm.trans h) (by decide)
        · exact absurd (hm.symm.trans h) (by decide)
        · exact ⟨p, hp, hp1⟩
        · exact absurd (hm.symm.trans h) (by decide)
      obtain ⟨sp1, sp2⟩ := wp_spec e g s1 s2 hm pm hpm s3
      have h2pm : 2 ≤ pm := by
        by_contra hlt
        exact sp1 (not_le.mp hlt) o h
      obtain ⟨w', t1, t2, t3, t4, -, -⟩ := sp2 r hr h2pm
      rw [h] at t1
      have t1' := congrArg Tpcf.wp (Except.ok.inj t1)
      rw [hw2] at t1'
      obtain rfl : w = w' := by simpa using t1'
      have hde : de = (["rp", "pi"], [g.bins.edges, linspace 0 pm (⌊pm⌋.toNat + 1)]) := by
        have hst : stateBins g.bins = .ok (["rp", "pi"], [g.bins.edges, linspace 0 pm (⌊pm⌋.toNat + 1)]) := by
          simp only [stateBins, hm, hpm, np1, np2, if_true, if_false, floor_succ pm (by linarith)]
        rw [hst] at k1
        exact (Except.ok.inj k1).symm
      refine ⟨some (relabel ["rp"] [g.bins.edges] w), ?_, fun h => absurd hm h, fun _ => ⟨w, hw2, by rw [t2, t3], t2, t3⟩⟩
      rw [hw2, hde]
      refine wedge_relabel rfl ?_
      simp [Binned.BS.shape, t4, Binned.centers_length]
  obtain ⟨w', e1, e2, e3⟩ := hwp
  refine ⟨⟨g.bins, some (bare o.D1D2), o.D1R2.map bare, o.D2R1.map bare, o.R1R2.map (relabel o.corr.dims o.corr.edges), bare o.corr, w'⟩, ?_,
    rfl, rfl, rfl, rfl, rfl, rfl, ?_, e2, e3⟩
  · unfold saveLoad setstate getstate
    simp only [q1, q2, q3, q4, q5, q6, k5.dims, k5.edges, k7]
    have c1 : (arr r.corr).1 = r.corr.shape := rfl
    have c2 : (arr r.corr).2 = r.corr.data := rfl
    rw [c1, c2, hcorr]
    simp only [Except.bind]
    rw [e1]
    simp only [wedge_std k2, wedge_opt k3, wedge_opt k4, hR', k5.dims, k5.edges]
  · rw [q5, q6, k5.dims, k5.edges]
    exact hbare

/-! ## Cases -/

/-- Two catalogs in a box of size 10: 0 has 4 objects, 1 is a random one. -/
def env0 : Env where
  pi := 3
  cap := fun t => t
  count := fun _ b i _ => .ok ⟨if i = 0 then 6 else 10, false,
    List.replicate ((b.edges.length - 1) * (b.Nmu.getD (⌊b.pimax.getD 1⌋.toNat))) (.fin 1),
    List.replicate ((b.edges.length - 1) * (b.Nmu.getD (⌊b.pimax.getD 1⌋.toNat))) (if i = 0 then (3, 3) else (2, 2))⟩
  csize := fun _ => 4
  boxOf := fun _ => some [10, 10, 10]
  sphere := fun _ c => c
  oldNumpy := false
  world := ⟨[]⟩

/-- Whether there is an error. -/
def failed {α : Type} : Except Err α → Option Err
  | .ok _ => none
  | .error e => some e

/-- The edges of the random pairs, of the correlation function and its values, before and after `save` and `load`. -/
def view (x : Except Err Tpcf) : Option (List (List ℚ) × List (List ℚ) × List Binned.Val) :=
  match x with
  | .ok o => some ((o.R1R2.map Binned.BS.edges).getD [], o.corr.edges, columnOf o.corr "corr")
  | .error _ => none

def viewLoaded (x : Except Err Tpcf) : Option (List (List ℚ) × List (List ℚ) × List Binned.Val) :=
  match x with
  | .ok o => match saveLoad o with
    | .ok l => some ((l.R1R2.map Binned.BS.edges).getD [], l.corr.edges, columnOf l.corr "corr")
    | .error _ => none
  | .error _ => none

/-- The pairs averaged along a dimension, before and after `save` and `load`. -/
def averaged (x : Except Err Tpcf) (dim : String) : Option (List Binned.Val × List Binned.Val) :=
  match x with
  | .ok o => match saveLoad o with
    | .ok l => match l.D1D2 with
      | some d => match (Binned.averageCall false ⟨[]⟩ o.D1D2 dim .none true none).2.2, (Binned.averageCall false ⟨[]⟩ d dim .none true none).2.2 with
        | .ok a, .ok b => some (columnOf a "wnpairs", columnOf b "wnpairs")
        | _, _ => none
      | none => none
    | .error _ => none
  | .error _ => none

def natural0 : Args := { kind := .sim, bins := ⟨"1d", [1, 2, 3], none, none⟩, data1 := 0 }
def ls0 : Args := { kind := .survey, bins := ⟨"2d", [1, 2], some 2, none⟩, data1 := 0, randoms1 := some 1 }
def proj0 : Args := { kind := .sim, bins := ⟨"projected", [1, 2], none, some 2⟩, data1 := 0, randoms1 := some 1 }

/-- Random pairs over other bins. -/
def otherPairs : Option PC :=
  match newPC .survey ⟨"2d", [7, 9], some 2, none⟩ (.ok ⟨10, true, [.fin 8, .fin 8], [(2, 2), (2, 2)]⟩) with
  | .ok p => some p
  | .error _ => none

/-- C108: random pairs counted over other bins are accepted if the shape agrees, and after loading they have the bins of the data. -/
theorem random_pairs_mislabelled :
    view (new env0 { ls0 with R1R2 := otherPairs }) = some ([[7, 9], [0, 1 / 2, 1]], [[1, 2], [0, 1 / 2, 1]], [.fin (-3 / 2), .fin (-3 / 2)]) ∧
    viewLoaded (new env0 { ls0 with R1R2 := otherPairs }) =
      some ([[1, 2], [0, 1 / 2, 1]], [[1, 2], [0, 1 / 2, 1]], [.fin (-3 / 2), .fin (-3 / 2)]) := by
  constructor <;> decide +kernel

/-- C108: along `mu` the pairs of the bins are added up before `save`, but averaged after `load`. -/
theorem sums_lost : averaged (new env0 ls0) "mu" = some ([.fin 6], [.fin 3]) := by decide +kernel

/-- C108: with the additional keyword `periodic=True` a survey without randoms is counted as a box. -/
theorem survey_as_box :
    counterOf { natural0 with kind := .survey, config := [("periodic", true)] } = .box ∧
    failed (new env0 { natural0 with kind := .survey, config := [("periodic", true)] }) = none ∧
    failed (new env0 { natural0 with kind := .survey }) = some .valueError := by
  refine ⟨?_, ?_, ?_⟩ <;> decide +kernel

-- the natural estimator: 3 pairs of 6 in each shell, and N^2 (4/3 pi (2^3 - 1)) / V = 0.448 of 6 random pairs in the first one
example : (view (new env0 natural0)).map (fun v => v.2.2) = some [.fin (3 / 6 * (4 * 3 / 2) / (16 * (4 / 3 * 3 * (2 ^ 3 - 1) / 1000)) - 1),
    .fin (3 / 6 * (4 * 3 / 2) / (16 * (4 / 3 * 3 * (3 ^ 3 - 2 ^ 3) / 1000)) - 1)] := by decide +kernel

-- the hypotheses of `wp_spec` and `saveLoad_partial`
example : failed (new env0 proj0) = none ∧ failed (new env0 { proj0 with bins := ⟨"projected", [1, 2], none, some (3 / 2)⟩ }) ≠ none := by
  constructor <;> decide +kernel

example : Sized env0 proj0.bins := by
  intro c i j x hx dims edges hb
  have np1 : ¬ ("projected" = "1d") := by decide
  have np2 : ¬ ("projected" = "2d") := by decide
  simp only [proj0, stateBins, np1, np2, if_true, if_false, Except.ok.injEq, Prod.mk.injEq] at hb
  obtain ⟨-, rfl⟩ := hb
  rw [← Except.ok.inj hx]
  have h3 : ⌊(2 : ℚ) + 1⌋.toNat = 3 := by decide +kernel
  have h2 : ⌊(2 : ℚ)⌋.toNat = 2 := by decide +kernel
  simp [proj0, linspace, h2, h3]

example : GivenSized proj0 := by intro o h; cases h

-- the hypotheses of `angular_needs_attr`
example : failed (new { env0 with boxOf := fun _ => none } { natural0 with bins := ⟨"angular", [1, 2], none, none⟩, box := some [10, 10, 10] }) =
    some .keyError := by decide +kernel

end NBK.PcfObj
