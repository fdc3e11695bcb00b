import Verif.ReconObj.Model
import Verif.Recon.Props

/-! # The constructor and the objects of `FFTRecon` -/
set_option linter.unusedSimpArgs false
namespace NBK.ReconObj
open NBK.Recon (V3 Scheme Field)

/-! ## The constructor -/

theorem bcast3_ok {α : Type} (l : List α) : (∃ v, bcast3 l = .ok v) ↔ l.length = 1 ∨ l.length = 3 := by
  unfold bcast3
  split
  · simp
  · simp
  · rename_i h1 h2
    constructor
    · rintro ⟨v, h⟩; cases h
    · rintro (h | h)
      · obtain ⟨x, rfl⟩ := List.length_eq_one_iff.1 h; exact absurd rfl (h1 x)
      · obtain ⟨x, y, z, rfl⟩ := List.length_eq_three.1 h; exact absurd rfl (h2 x y z)

theorem losOf_ok (l : List ℚ) : (∃ v, losOf l = .ok v) ↔ l.length = 3 ∧ ∃ x ∈ l, x ≠ 0 := by
  unfold losOf
  split
  · rename_i x y z
    by_cases h : x ^ 2 + y ^ 2 + z ^ 2 = 0
    · rw [if_pos h]
      constructor
      · rintro ⟨v, h⟩; cases h
      · rintro ⟨_, w, hw, h0⟩
        have hx : x = 0 := by nlinarith [sq_nonneg x, sq_nonneg y, sq_nonneg z, pow_eq_zero_iff (n := 2) (a := x) (by norm_num)]
        have hy : y = 0 := by nlinarith [sq_nonneg x, sq_nonneg y, sq_nonneg z]
        have hz : z = 0 := by nlinarith [sq_nonneg x, sq_nonneg y, sq_nonneg z]
        subst hx hy hz
        simp at hw
        exact absurd hw h0
    · rw [if_neg h]
      refine ⟨fun _ => ⟨rfl, ?_⟩, fun _ => ⟨_, rfl⟩⟩
      by_contra hc
      push Not at hc
      apply h
      rw [hc x (by simp), hc y (by simp), hc z (by simp)]
      norm_num
  · rename_i h1
    constructor
    · rintro ⟨v, h⟩; cases h
    · rintro ⟨h, _⟩
      obtain ⟨x, y, z, rfl⟩ := List.length_eq_three.1 h
      exact absurd rfl (h1 x y z)

theorem orAttr_ok {α : Type} (x y : Option α) (v : α) : orAttr x y = .ok v ↔ x.or y = some v := by
  cases x <;> cases y <;> simp [orAttr]

theorem schemeOf_ok (s : String) : (schemeOf s).isSome = true ↔ s = "LGS" ∨ s = "LF2" ∨ s = "LRR" := by
  unfold schemeOf
  split <;> simp_all

theorem require_ok (b : Bool) : require b = .ok () ↔ b = true := by
  unfold require; cases b <;> simp

/-- What the constructor needs, step by step. -/
theorem new_eq (cats : List Cat) (a : Args) (o : Obj) : new cats a = .ok o ↔
    (a.scheme = "LGS" ∨ a.scheme = "LF2" ∨ a.scheme = "LRR") ∧ ∃ d r n N b B los, cats[a.data]? = some d ∧ cats[a.ran]? = some r ∧ d.isCatalog = true ∧ r.isCatalog = true ∧ d.comm = r.comm ∧
      a.nmesh.or d.nmesh = some n ∧ bcast3 n = .ok N ∧ a.box.or d.box = some b ∧ losOf a.los = .ok los ∧ bcast3 b = .ok B ∧
      (d.cols a.position).isSome = true ∧ (r.cols a.position).isSome = true ∧
      o = ⟨.recon N B a.position a.data a.ran, ⟨a.bias, a.f, los, a.R, a.scheme, a.revert, [N 0, N 1, N 2], [B 0, B 1, B 2]⟩⟩ := by
  unfold new
  simp only [bind, Except.bind, pure, Except.pure]
  constructor
  · intro h
    cases h1 : require (schemeOf a.scheme).isSome <;> simp only [h1] at h
    · cases h
    cases h2 : cats[a.data]? <;> simp only [h2, Option.elim] at h
    · cases h
    rename_i d
    cases h3 : cats[a.ran]? <;> simp only [h3, Option.elim] at h
    · cases h
    rename_i r
    cases h4 : require d.isCatalog <;> simp only [h4] at h
    · cases h
    cases h5 : require r.isCatalog <;> simp only [h5] at h
    · cases h
    cases h6 : require (decide (d.comm = r.comm)) <;> simp only [h6] at h
    · cases h
    cases h7 : orAttr a.nmesh d.nmesh <;> simp only [h7] at h
    · cases h
    rename_i n
    cases h8 : bcast3 n <;> simp only [h8] at h
    · cases h
    rename_i N
    cases h9 : orAttr a.box d.box <;> simp only [h9] at h
    · cases h
    rename_i b
    cases h10 : losOf a.los <;> simp only [h10] at h
    · cases h
    rename_i los
    cases h11 : bcast3 b <;> simp only [h11] at h
    · cases h
    rename_i B
    cases h12 : require (d.cols a.position).isSome <;> simp only [h12] at h
    · cases h
    cases h13 : require (r.cols a.position).isSome <;> simp only [h13] at h
    · cases h
    cases h
    exact ⟨(schemeOf_ok _).1 ((require_ok _).1 h1), d, r, n, N, b, B, los, rfl, rfl, (require_ok _).1 h4, (require_ok _).1 h5, by simpa using (require_ok _).1 h6,
      (orAttr_ok _ _ _).1 h7, h8, (orAttr_ok _ _ _).1 h9, rfl, h11, (require_ok _).1 h12, (require_ok _).1 h13, rfl⟩
  · rintro ⟨hs, d, r, n, N, b, B, los, h2, h3, h4, h5, h6, h7, h8, h9, h10, h11, h12, h13, rfl⟩
    simp only [(require_ok _).2 ((schemeOf_ok _).2 hs), h2, h3, Option.elim, (require_ok _).2 h4, (require_ok _).2 h5, (require_ok (decide (d.comm = r.comm))).2 (by simpa using h6),
      (orAttr_ok _ _ _).2 h7, h8, (orAttr_ok _ _ _).2 h9, h10, h11, (require_ok _).2 h12, (require_ok _).2 h13]

/-- **Construction** succeeds exactly with one of the three schemes, two catalogs of one communicator that have the column, `Nmesh` and `BoxSize` given or found in the `attrs` of the data, one
number or three, and a direction of three numbers that is not zero. -/
theorem new_ok_iff (cats : List Cat) (a : Args) : (∃ o, new cats a = .ok o) ↔
    (a.scheme = "LGS" ∨ a.scheme = "LF2" ∨ a.scheme = "LRR") ∧ ∃ d r n b, cats[a.data]? = some d ∧ cats[a.ran]? = some r ∧ d.isCatalog = true ∧ r.isCatalog = true ∧ d.comm = r.comm ∧
      a.nmesh.or d.nmesh = some n ∧ (n.length = 1 ∨ n.length = 3) ∧ a.box.or d.box = some b ∧ (b.length = 1 ∨ b.length = 3) ∧
      a.los.length = 3 ∧ (∃ x ∈ a.los, x ≠ 0) ∧ (d.cols a.position).isSome = true ∧ (r.cols a.position).isSome = true := by
  constructor
  · rintro ⟨o, h⟩
    obtain ⟨hs, d, r, n, N, b, B, los, h2, h3, h4, h5, h6, h7, h8, h9, h10, h11, h12, h13, _⟩ := (new_eq cats a o).1 h
    obtain ⟨l1, l2⟩ := (losOf_ok _).1 ⟨_, h10⟩
    exact ⟨hs, d, r, n, b, h2, h3, h4, h5, h6, h7, (bcast3_ok _).1 ⟨_, h8⟩, h9, (bcast3_ok _).1 ⟨_, h11⟩, l1, l2, h12, h13⟩
  · rintro ⟨hs, d, r, n, b, h2, h3, h4, h5, h6, h7, h8, h9, h11, l1, l2, h12, h13⟩
    obtain ⟨N, hN⟩ := (bcast3_ok _).2 h8
    obtain ⟨B, hB⟩ := (bcast3_ok _).2 h11
    obtain ⟨los, hl⟩ := (losOf_ok _).2 ⟨l1, l2⟩
    exact ⟨_, (new_eq cats a _).2 ⟨hs, d, r, n, N, b, B, los, h2, h3, h4, h5, h6, h7, hN, h9, hl, hB, h12, h13, rfl⟩⟩

/-- **Errors** of the constructor: a missing `Nmesh` or `BoxSize` is a `KeyError`, numbers that are neither one nor three a `ValueError`, both only for sources and a scheme that passed; all else is
an assertion. -/
theorem new_errors (cats : List Cat) (a : Args) (e : Err) (h : new cats a = .error e) : e = .assertion ∨
    ((a.scheme = "LGS" ∨ a.scheme = "LF2" ∨ a.scheme = "LRR") ∧ ∃ d r, cats[a.data]? = some d ∧ cats[a.ran]? = some r ∧ d.isCatalog = true ∧ r.isCatalog = true ∧ d.comm = r.comm ∧
      ((e = .keyError ∧ (a.nmesh.or d.nmesh = none ∨ a.box.or d.box = none)) ∨
       (e = .valueError ∧ ((∃ n, a.nmesh.or d.nmesh = some n ∧ n.length ≠ 1 ∧ n.length ≠ 3) ∨
         ((∃ b, a.box.or d.box = some b ∧ b.length ≠ 1 ∧ b.length ≠ 3) ∧ a.los.length = 3 ∧ ∃ x ∈ a.los, x ≠ 0))))) := by
  have req : ∀ b er, require b = .error er → er = .assertion := by
    intro b er; unfold require; cases b <;> simp; exact fun h => h.symm
  have orr : ∀ {α : Type} (x y : Option α) er, orAttr x y = .error er → er = .keyError ∧ x.or y = none := by
    intro α x y er; cases x <;> cases y <;> simp [orAttr]; exact fun h => h.symm
  have bc : ∀ {α : Type} (l : List α) er, bcast3 l = .error er → er = .valueError ∧ l.length ≠ 1 ∧ l.length ≠ 3 := by
    intro α l er hl
    have hn : ¬ (l.length = 1 ∨ l.length = 3) := fun hc => by obtain ⟨v, hv⟩ := (bcast3_ok l).2 hc; rw [hl] at hv; cases hv
    refine ⟨?_, fun h => hn (.inl h), fun h => hn (.inr h)⟩
    unfold bcast3 at hl
    split at hl <;> cases hl
    rfl
  have lo : ∀ l er, losOf l = .error er → er = .assertion := by
    intro l er hl
    unfold losOf at hl
    split at hl
    · split at hl <;> cases hl
      rfl
    · cases hl; rfl
  unfold new at h
  simp only [bind, Except.bind, pure, Except.pure] at h
  cases h1 : require (schemeOf a.scheme).isSome with
  | error er => simp only [h1] at h; cases h; exact .inl (req _ _ h1)
  | ok _ =>
  simp only [h1] at h
  cases h2 : cats[a.data]? with
  | none => simp only [h2, Option.elim] at h; cases h; exact .inl rfl
  | some d =>
  simp only [h2, Option.elim] at h
  cases h3 : cats[a.ran]? with
  | none => simp only [h3] at h; cases h; exact .inl rfl
  | some r =>
  simp only [h3] at h
  cases h4 : require d.isCatalog with
  | error er => simp only [h4] at h; cases h; exact .inl (req _ _ h4)
  | ok _ =>
  simp only [h4] at h
  cases h5 : require r.isCatalog with
  | error er => simp only [h5] at h; cases h; exact .inl (req _ _ h5)
  | ok _ =>
  simp only [h5] at h
  cases h6 : require (decide (d.comm = r.comm)) with
  | error er => simp only [h6] at h; cases h; exact .inl (req _ _ h6)
  | ok _ =>
  simp only [h6] at h
  have pre := And.intro ((schemeOf_ok _).1 ((require_ok _).1 h1)) (And.intro ((require_ok _).1 h4) (And.intro ((require_ok _).1 h5) (show d.comm = r.comm by simpa using (require_ok _).1 h6)))
  cases h7 : orAttr a.nmesh d.nmesh with
  | error er =>
    simp only [h7] at h; cases h
    obtain ⟨rfl, hh⟩ := orr _ _ _ h7
    exact .inr ⟨pre.1, d, r, rfl, rfl, pre.2.1, pre.2.2.1, pre.2.2.2, .inl ⟨rfl, .inl hh⟩⟩
  | ok n =>
  simp only [h7] at h
  cases h8 : bcast3 n with
  | error er =>
    simp only [h8] at h; cases h
    obtain ⟨rfl, hh⟩ := bc _ _ h8
    exact .inr ⟨pre.1, d, r, rfl, rfl, pre.2.1, pre.2.2.1, pre.2.2.2, .inr ⟨rfl, .inl ⟨n, (orAttr_ok _ _ _).1 h7, hh⟩⟩⟩
  | ok N =>
  simp only [h8] at h
  cases h9 : orAttr a.box d.box with
  | error er =>
    simp only [h9] at h; cases h
    obtain ⟨rfl, hh⟩ := orr _ _ _ h9
    exact .inr ⟨pre.1, d, r, rfl, rfl, pre.2.1, pre.2.2.1, pre.2.2.2, .inl ⟨rfl, .inr hh⟩⟩
  | ok b =>
  simp only [h9] at h
  cases h10 : losOf a.los with
  | error er => simp only [h10] at h; cases h; exact .inl (lo _ _ h10)
  | ok los =>
  simp only [h10] at h
  cases h11 : bcast3 b with
  | error er =>
    simp only [h11] at h; cases h
    obtain ⟨rfl, hh⟩ := bc _ _ h11
    exact .inr ⟨pre.1, d, r, rfl, rfl, pre.2.1, pre.2.2.1, pre.2.2.2, .inr ⟨rfl, .inr ⟨⟨b, (orAttr_ok _ _ _).1 h9, hh⟩, (losOf_ok _).1 ⟨_, h10⟩⟩⟩⟩
  | ok B =>
  simp only [h11] at h
  cases h12 : require (d.cols a.position).isSome with
  | error er => simp only [h12] at h; cases h; exact .inl (req _ _ h12)
  | ok _ =>
  simp only [h12] at h
  cases h13 : require (r.cols a.position).isSome with
  | error er => simp only [h13] at h; cases h; exact .inl (req _ _ h13)
  | ok _ => simp only [h13] at h; cases h

theorem bcast3_get {α : Type} (l : List α) (v : Fin 3 → α) (h : bcast3 l = .ok v) (i : Fin 3) : l[i.val % l.length]? = some (v i) := by
  unfold bcast3 at h
  split at h
  · cases h; simp [Nat.mod_one]
  · cases h; fin_cases i <;> rfl
  · cases h

/-- **Attributes** of a new object: the parameters as given, the mesh given or that of the data, and the direction divided by the square of its length. -/
theorem new_spec (cats : List Cat) (a : Args) (o : Obj) (h : new cats a = .ok o) :
    o.attrs.bias = a.bias ∧ o.attrs.f = a.f ∧ o.attrs.R = a.R ∧ o.attrs.scheme = a.scheme ∧ o.attrs.revert = a.revert ∧
    (∀ i : Fin 3, a.los[i.val]? = some (o.attrs.los i * (a.los.map (· ^ 2)).sum)) ∧
    ∃ N B, o.base = .recon N B a.position a.data a.ran ∧ o.attrs.nmesh = List.ofFn N ∧ o.attrs.box = List.ofFn B ∧
      ∀ d, cats[a.data]? = some d → (∀ i : Fin 3, ∃ n, a.nmesh.or d.nmesh = some n ∧ n[i.val % n.length]? = some (N i)) ∧
        ∀ i : Fin 3, ∃ b, a.box.or d.box = some b ∧ b[i.val % b.length]? = some (B i) := by
  obtain ⟨hs, d, r, n, N, b, B, los, h2, h3, h4, h5, h6, h7, h8, h9, h10, h11, h12, h13, rfl⟩ := (new_eq cats a o).1 h
  refine ⟨rfl, rfl, rfl, rfl, rfl, ?_, N, B, rfl, rfl, rfl, ?_⟩
  · intro i
    dsimp only
    unfold losOf at h10
    split at h10
    · rename_i x y z hxyz
      split at h10
      · cases h10
      · rename_i h0
        cases h10
        rw [hxyz]
        have e : ([x, y, z].map (· ^ 2)).sum = x ^ 2 + y ^ 2 + z ^ 2 := by simp; ring
        rw [e]
        fin_cases i
        · simp [div_mul_cancel₀ _ h0]
        · simp [div_mul_cancel₀ _ h0]
        · simp [div_mul_cancel₀ _ h0]
    · cases h10
  · intro d' hd
    rw [h2] at hd
    cases hd
    exact ⟨fun i => ⟨n, h7, bcast3_get n N h8 i⟩, fun i => ⟨b, h9, bcast3_get b B h11 i⟩⟩

/-- An object made again, after any changes of the catalogs, with the mesh of the old one is the same: nothing else of the catalogs is kept at construction. -/
theorem renew (cats cats' : List Cat) (a : Args) (o o' : Obj) (h : new cats a = .ok o)
    (h' : new cats' { a with nmesh := some o.attrs.nmesh, box := some o.attrs.box } = .ok o') : o' = o := by
  obtain ⟨hs, d, r, n, N, b, B, los, h2, h3, h4, h5, h6, h7, h8, h9, h10, h11, h12, h13, rfl⟩ := (new_eq cats a o).1 h
  obtain ⟨_, d', r', n', N', b', B', los', k2, k3, k4, k5, k6, k7, k8, k9, k10, k11, k12, k13, rfl⟩ := (new_eq cats' _ o').1 h'
  simp only [Option.some_or, Option.some.injEq] at k7 k9
  subst k7 k9
  rw [h10] at k10
  cases k10
  simp only [bcast3, Except.ok.injEq] at k8 k11
  have eN : N' = N := by rw [← k8]; funext i; fin_cases i <;> rfl
  have eB : B' = B := by rw [← k11]; funext i; fin_cases i <;> rfl
  subst eN eB
  rfl

/-! ## Setting attributes -/

/-- Setting a key of `attrs` is the same as giving it to the constructor. -/
theorem set_is_new (cats : List Cat) (a : Args) (o : Obj) (h : new cats a = .ok o) :
    (∀ q, new cats { a with bias := q } = .ok { o with attrs := o.attrs.set (.bias q) }) ∧
    (∀ q, new cats { a with f := q } = .ok { o with attrs := o.attrs.set (.f q) }) ∧
    (∀ q, new cats { a with R := q } = .ok { o with attrs := o.attrs.set (.R q) }) ∧
    (∀ q, new cats { a with revert := q } = .ok { o with attrs := o.attrs.set (.revert q) }) ∧
    (∀ q, q = "LGS" ∨ q = "LF2" ∨ q = "LRR" → new cats { a with scheme := q } = .ok { o with attrs := o.attrs.set (.scheme q) }) ∧
    (∀ v : V3, v 0 ^ 2 + v 1 ^ 2 + v 2 ^ 2 = 1 → new cats { a with los := [v 0, v 1, v 2] } = .ok { o with attrs := o.attrs.set (.los v) }) := by
  obtain ⟨hs, d, r, n, N, b, B, los, h2, h3, h4, h5, h6, h7, h8, h9, h10, h11, h12, h13, rfl⟩ := (new_eq cats a o).1 h
  refine ⟨fun q => ?_, fun q => ?_, fun q => ?_, fun q => ?_, fun q hq => ?_, fun v hv => ?_⟩
  · exact (new_eq cats _ _).2 ⟨hs, d, r, n, N, b, B, los, h2, h3, h4, h5, h6, h7, h8, h9, h10, h11, h12, h13, rfl⟩
  · exact (new_eq cats _ _).2 ⟨hs, d, r, n, N, b, B, los, h2, h3, h4, h5, h6, h7, h8, h9, h10, h11, h12, h13, rfl⟩
  · exact (new_eq cats _ _).2 ⟨hs, d, r, n, N, b, B, los, h2, h3, h4, h5, h6, h7, h8, h9, h10, h11, h12, h13, rfl⟩
  · exact (new_eq cats _ _).2 ⟨hs, d, r, n, N, b, B, los, h2, h3, h4, h5, h6, h7, h8, h9, h10, h11, h12, h13, rfl⟩
  · exact (new_eq cats _ _).2 ⟨hq, d, r, n, N, b, B, los, h2, h3, h4, h5, h6, h7, h8, h9, h10, h11, h12, h13, rfl⟩
  · have e : losOf [v 0, v 1, v 2] = .ok v := by
      unfold losOf
      dsimp only
      rw [if_neg (by rw [hv]; norm_num), hv]
      congr 1
      funext i
      fin_cases i <;> simp
    exact (new_eq cats _ _).2 ⟨hs, d, r, n, N, b, B, v, h2, h3, h4, h5, h6, h7, h8, h9, e, h11, h12, h13, rfl⟩

/-- Except for a direction that is not a unit vector: the constructor divides it by the square of its length, setting does not. -/
theorem set_los_differs (cats : List Cat) (a : Args) (o : Obj) (h : new cats a = .ok o) (v : V3) (hv0 : v ≠ 0) (hv : v 0 ^ 2 + v 1 ^ 2 + v 2 ^ 2 ≠ 1) :
    new cats { a with los := [v 0, v 1, v 2] } ≠ .ok { o with attrs := o.attrs.set (.los v) } := by
  intro hc
  have hsp := (new_spec cats _ _ hc).2.2.2.2.2.1
  apply hv0
  have e : (([v 0, v 1, v 2] : List ℚ).map (· ^ 2)).sum = v 0 ^ 2 + v 1 ^ 2 + v 2 ^ 2 := by simp; ring
  funext i
  have := hsp i
  dsimp only [Attrs.set] at this
  rw [e] at this
  have hi : v i = v i * (v 0 ^ 2 + v 1 ^ 2 + v 2 ^ 2) := by
    fin_cases i <;> simpa using this
  have : v i * (v 0 ^ 2 + v 1 ^ 2 + v 2 ^ 2 - 1) = 0 := by linarith
  rcases mul_eq_zero.1 this with h0 | h0
  · exact h0
  · exact absurd (by linarith) hv

/-- What is assigned to `BoxSize` and `Nmesh`. -/
def Key.boxes : Key → List (List ℚ)
  | .box l => [l]
  | _ => []
def Key.meshes : Key → List (List Nat)
  | .nmesh l => [l]
  | _ => []

/-- C133: after any assignments to `attrs`, `BoxSize` and `Nmesh` are what was assigned to them last. -/
theorem set_last (a : Attrs) (ks : List Key) :
    (ks.foldl Attrs.set a).box = (ks.flatMap Key.boxes).getLastD a.box ∧ (ks.foldl Attrs.set a).nmesh = (ks.flatMap Key.meshes).getLastD a.nmesh := by
  induction ks generalizing a with
  | nil => exact ⟨rfl, rfl⟩
  | cons k ks ih =>
    rw [List.foldl_cons, (ih _).1, (ih _).2, List.flatMap_cons, List.flatMap_cons]
    cases k <;> simp [Key.boxes, Key.meshes, Attrs.set, List.getLast?_cons]

example (a : Attrs) : ([.box [1, 1, 1], .bias 2, .box [3, 3, 3], .nmesh [4, 4, 4]].foldl Attrs.set a).box = [3, 3, 3] := rfl

end NBK.ReconObj
