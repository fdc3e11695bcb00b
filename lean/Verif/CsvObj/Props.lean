import Verif.CsvObj.Model
import Verif.Csv.Props
import Verif.FileObj.Props

set_option linter.unusedSimpArgs false

/-!
# C114: what a CSV file object accepts, its types, and the values it returns
-/
namespace NBK.CsvObj
open NBK.FileIO
variable {β : Type} [DecidableEq β]

/-! ## Opening -/

/-- The rows that are looked at when the file is opened, split into cells: the first 10, or as many as `nrows` says. -/
def firstRows (nl : β) (split : Sep → List β → List Cell) (bytes : List β) (g : Cfg) : List (List Cell) :=
  (Csv.parse nl g.skipBlank ⟨bytes, g.skiprows.count, g.nrows.verify⟩).map (split (sepOf g))

/-- The cell of a row in the column `c`. -/
def cellAt (names : List String) (r : List Cell) (c : String) : Cell := r.getD (names.idxOf c) .missing

/-- A number. -/
def IsNumber (c : Cell) : Prop := (∃ n : Int, c = .int n) ∨ ∃ q : ℚ, c = .flt q

/-- No keyword that is not supported. -/
structure GoodKeywords (g : Cfg) : Prop where
  index : ∀ k, g.indexCol = some k → k = .none ∨ k = .flag false ∨ k = .int 0 ∨ k = .str ""
  comment : ∀ s, g.comment ≠ some (some s)
  header : ∀ n, g.header ≠ some (some n)
  skiprows : g.skiprows ≠ .list
  skipfooter : g.skipfooter = none

/-- The first rows are a table of numbers. -/
structure GoodStart (nl : β) (split : Sep → List β → List Cell) (bytes : List β) (names : List String) (g : Cfg) : Prop where
  engine : g.engine ≠ .other
  nrows : ∀ n, g.nrows = .num n → 0 ≤ n
  first : ∃ r rs, firstRows nl split bytes g = r :: rs ∧ r.length = names.length ∧ (g.engine = .c → ∀ x ∈ rs, x.length ≤ names.length)
  nodup : names.Nodup
  sub : ∀ c ∈ selOf g names, c ∈ names
  numbers : ∀ c ∈ selOf g names, ∀ r ∈ firstRows nl split bytes g, IsNumber (cellAt names r c)

theorem checkCfg_iff (g : Cfg) : (checkCfg g = .ok () ↔ GoodKeywords g) ∧ (checkCfg g ≠ .ok () → checkCfg g = .error .valueError) := by
  have hk : ∀ k : Key, k.truthy = false ↔ (k = .none ∨ k = .flag false ∨ k = .int 0 ∨ k = .str "") := by
    intro k; cases k <;> simp [Key.truthy]
  unfold checkCfg
  constructor
  · constructor
    · intro h
      split at h
      · cases h
      rename_i h1
      split at h
      · cases h
      rename_i h2
      split at h
      · cases h
      rename_i h3
      split at h
      · cases h
      rename_i h4
      split at h
      · cases h
      rename_i h5
      refine ⟨?_, ?_, ?_, h4, by simpa using h5⟩
      · intro k hk'
        rw [hk'] at h1
        exact (hk k).mp (by simpa using h1)
      · intro s hs
        rw [hs] at h2
        simp at h2
      · intro s hs
        rw [hs] at h3
        simp at h3
    · intro h
      rw [if_neg, if_neg, if_neg, if_neg h.skiprows, if_neg (by simp [h.skipfooter])]
      · cases hh : g.header with
        | none => simp
        | some x => cases x with
          | none => simp
          | some n => exact absurd hh (h.header n)
      · cases hh : g.comment with
        | none => simp
        | some x => cases x with
          | none => simp
          | some n => exact absurd hh (h.comment n)
      · cases hh : g.indexCol with
        | none => simp
        | some k => simpa using (hk k).mpr (h.index k hh)
  · intro h
    split at h <;> try simp_all
    split at h <;> try simp_all
    split at h <;> try simp_all
    split at h <;> try simp_all

/-- The type of numbers. -/
theorem infer_spec (cells : List Cell) :
    (infer cells = .i8 ↔ cells ≠ [] ∧ ∀ c ∈ cells, ∃ n : Int, c = .int n) ∧
    (infer cells = .obj ↔ cells = [] ∨ ∃ s : String, Cell.text s ∈ cells) := by
  unfold infer
  by_cases h0 : cells = []
  · simp [h0]
  rw [if_neg h0]
  by_cases h1 : cells.any Cell.isText
  · rw [if_pos h1]
    rw [List.any_eq_true] at h1
    obtain ⟨c, hc, hc'⟩ := h1
    cases c with
    | text s =>
      refine ⟨⟨(fun h => by cases h), fun h => ?_⟩, ⟨fun _ => Or.inr ⟨s, hc⟩, fun _ => rfl⟩⟩
      obtain ⟨n, hn⟩ := h.2 _ hc
      cases hn
    | _ => simp [Cell.isText] at hc'
  · rw [if_neg h1]
    have h1' : ∀ s : String, Cell.text s ∉ cells := by
      intro s hs
      apply h1
      rw [List.any_eq_true]
      exact ⟨_, hs, rfl⟩
    by_cases h2 : cells.any Cell.isFloat
    · rw [if_pos h2]
      rw [List.any_eq_true] at h2
      obtain ⟨c, hc, hc'⟩ := h2
      refine ⟨⟨(fun h => by cases h), fun h => ?_⟩, ⟨(fun h => by cases h), fun h => ?_⟩⟩
      · obtain ⟨n, hn⟩ := h.2 _ hc
        rw [hn] at hc'
        simp [Cell.isFloat] at hc'
      · rcases h with h | ⟨s, hs⟩
        · exact absurd h h0
        · exact absurd hs (h1' s)
    · rw [if_neg h2]
      refine ⟨⟨fun _ => ⟨h0, ?_⟩, fun _ => rfl⟩, ⟨(fun h => by cases h), fun h => ?_⟩⟩
      · intro c hc
        cases c with
        | int n => exact ⟨n, rfl⟩
        | flt q => exact absurd (List.any_eq_true.mpr ⟨_, hc, rfl⟩) h2
        | missing => exact absurd (List.any_eq_true.mpr ⟨_, hc, rfl⟩) h2
        | text s => exact absurd hc (h1' s)
      · rcases h with h | ⟨s, hs⟩
        · exact absurd h h0
        · exact absurd hs (h1' s)

theorem colCells_mem (names : List String) (rows : List (List Cell)) (c : String) (x : Cell) :
    x ∈ colCells names rows c ↔ ∃ r ∈ rows, cellAt names r c = x := by
  simp [colCells, cellAt]

theorem verify_error (nl : β) (split : Sep → List β → List Cell) (bytes : List β) (names : List String) (g : Cfg) (e : Err)
    (h : verify nl split bytes names g = .error e) : e = .valueError := by
  unfold verify at h
  dsimp only at h
  split at h
  · cases h; rfl
  split at h
  · cases h; rfl
  repeat (split at h; · cases h; rfl)
  cases h

theorem verify_iff (nl : β) (split : Sep → List β → List Cell) (bytes : List β) (names : List String) (g : Cfg) (l : List (String × DT)) :
    verify nl split bytes names g = .ok l ↔ GoodStart nl split bytes names g ∧
      l = (selOf g names).map fun c => (c, infer (colCells names (firstRows nl split bytes g) c)) := by
  unfold verify
  dsimp only
  have hneg : ((g.nrows.verify.elim false fun n => decide (n < 0)) || g.engine == .other) = false ↔
      (g.engine ≠ .other ∧ ∀ n, g.nrows = .num n → 0 ≤ n) := by
    cases hn : g.nrows <;> simp [Nrows.verify, and_comm]
  change ((if ((g.nrows.verify.elim false fun n => decide (n < 0)) || g.engine == .other) = true then Except.error Err.valueError else
    match firstRows nl split bytes g with
    | [] => .error .valueError
    | first :: tl => _) = _) ↔ _
  by_cases h0 : ((g.nrows.verify.elim false fun n => decide (n < 0)) || g.engine == .other) = true
  · rw [if_pos h0]
    constructor
    · intro h; cases h
    · intro h
      have := hneg.mpr ⟨h.1.engine, h.1.nrows⟩
      rw [this] at h0
      cases h0
  · rw [if_neg h0]
    obtain ⟨k1, k2⟩ := hneg.mp (by simpa using h0)
    cases hr : firstRows nl split bytes g with
    | nil =>
      constructor
      · intro h; cases h
      · intro h
        obtain ⟨r, rs, h1, -⟩ := h.1.first
        rw [hr] at h1
        cases h1
    | cons first rs =>
      have hfr : (Csv.parse nl g.skipBlank ⟨bytes, g.skiprows.count, g.nrows.verify⟩).map (split (sepOf g)) = first :: rs := hr
      rw [hfr]
      dsimp only
      have hnum : (∀ c ∈ selOf g names, ∀ r ∈ first :: rs, IsNumber (cellAt names r c)) ↔
          ((selOf g names).any (fun c => (colCells names (first :: rs) c).contains .missing) = false ∧
           (selOf g names).any (fun c => infer (colCells names (first :: rs) c) == .obj) = false) := by
        rw [List.any_eq_false, List.any_eq_false]
        constructor
        · intro h
          refine ⟨?_, ?_⟩
          · intro c hc hx
            rw [List.contains_iff_mem, colCells_mem] at hx
            obtain ⟨r, hr, hx⟩ := hx
            rcases h c hc r hr with ⟨n, hn⟩ | ⟨q, hq⟩
            · rw [hx] at hn; cases hn
            · rw [hx] at hq; cases hq
          · intro c hc hx
            have hx : infer (colCells names (first :: rs) c) = .obj := by simpa using hx
            rcases (infer_spec _).2.mp hx with hx | ⟨s, hs⟩
            · simp [colCells] at hx
            · rw [colCells_mem] at hs
              obtain ⟨r, hr, hx⟩ := hs
              rcases h c hc r hr with ⟨n, hn⟩ | ⟨q, hq⟩
              · rw [hx] at hn; cases hn
              · rw [hx] at hq; cases hq
        · rintro ⟨ha, hb⟩ c hc r hr
          have ha := ha c hc
          have hb := hb c hc
          rw [List.contains_iff_mem, colCells_mem] at ha
          have hb : ¬ infer (colCells names (first :: rs) c) = .obj := by simpa using hb
          rw [(infer_spec _).2] at hb
          cases hx : cellAt names r c with
          | int n => exact Or.inl ⟨n, rfl⟩
          | flt q => exact Or.inr ⟨q, rfl⟩
          | missing => exact absurd ⟨r, hr, hx⟩ ha
          | text s => exact absurd (Or.inr ⟨s, (colCells_mem _ _ _ _).mpr ⟨r, hr, hx⟩⟩) hb
      have hlong : ¬ ((g.engine == .c && tooLong 0 (first :: rs)) = true) ↔ (g.engine = .c → ∀ x ∈ rs, x.length ≤ first.length) := by
        by_cases hc : g.engine = .c
        · simp [hc, tooLong]
        · simp [hc]
      by_cases c1 : (g.engine == .c && tooLong 0 (first :: rs)) = true
      · rw [if_pos c1]
        constructor
        · intro h; cases h
        · intro h
          obtain ⟨r, rs', h1, h2, h3⟩ := h.1.first
          rw [hr] at h1
          obtain ⟨rfl, rfl⟩ := List.cons.inj h1
          exact absurd c1 (hlong.mpr (by rw [h2]; exact h3))
      rw [if_neg c1]
      by_cases c2 : first.length ≠ names.length
      · rw [if_pos c2]
        constructor
        · intro h; cases h
        · intro h
          obtain ⟨r, rs', h1, h2, h3⟩ := h.1.first
          rw [hr] at h1
          obtain ⟨rfl, rfl⟩ := List.cons.inj h1
          exact absurd h2 c2
      rw [if_neg c2]
      have c2' : first.length = names.length := by simpa using c2
      by_cases c3 : names.Nodup
      swap
      · rw [if_pos (by simp [c3])]
        exact ⟨(fun h => by cases h), fun h => absurd h.1.nodup c3⟩
      rw [if_neg (by simp [c3])]
      by_cases c4 : ∀ c ∈ selOf g names, c ∈ names
      swap
      · rw [if_pos (by simpa using c4)]
        exact ⟨(fun h => by cases h), fun h => absurd h.1.sub c4⟩
      rw [if_neg (by simpa using c4)]
      by_cases c5 : (selOf g names).any (fun c => (colCells names (first :: rs) c).contains .missing) = true
      · rw [if_pos c5]
        constructor
        · intro h; cases h
        · intro h
          have := h.1.numbers
          rw [hr] at this
          rw [(hnum.mp this).1] at c5
          cases c5
      rw [if_neg c5]
      by_cases c6 : (selOf g names).any (fun c => infer (colCells names (first :: rs) c) == .obj) = true
      · rw [if_pos c6]
        constructor
        · intro h; cases h
        · intro h
          have := h.1.numbers
          rw [hr] at this
          rw [(hnum.mp this).2] at c6
          cases c6
      rw [if_neg c6]
      constructor
      · intro h
        refine ⟨⟨k1, k2, ⟨first, rs, hr, c2', by rw [← c2']; exact hlong.mp c1⟩, c3, c4, ?_⟩, (Except.ok.inj h).symm⟩
        rw [hr]
        exact hnum.mpr ⟨by simpa using c5, by simpa using c6⟩
      · intro h
        rw [h.2]

/-- The type of a column of the file: what the caller says; otherwise an integer if the first rows hold only integers, else a float. -/
def TypeRule (nl : β) (split : Sep → List β → List Cell) (bytes : List β) (names : List String) (g : Cfg) (c : String) (t : DT) : Prop :=
  match g.dtype with
  | .str d => t = d
  | .other => False
  | .dict l => (∀ d, dictGet l c = some d → t = d) ∧
      (dictGet l c = none → (t = .i8 ∧ ∀ r ∈ firstRows nl split bytes g, ∃ n : Int, cellAt names r c = .int n) ∨
        (t = .f8 ∧ ∃ r ∈ firstRows nl split bytes g, ∃ q : ℚ, cellAt names r c = .flt q))

theorem dictGet_map {γ : Type} (l : List String) (f : String → γ) (c : String) (h : c ∈ l) : dictGet (l.map fun c => (c, f c)) c = some (f c) := by
  induction l with
  | nil => cases h
  | cons x l ih =>
    unfold dictGet
    simp only [List.map_cons, List.find?_cons]
    by_cases hx : x = c
    · simp [hx]
    · simp only [hx, decide_false]
      exact ih (by rcases List.mem_cons.mp h with h | h; · exact absurd h.symm hx
                   · exact h)

theorem mapM_typeOf_ok {ε γ : Type} (f : String → Except ε γ) (l : List String) :
    (∃ ts, l.mapM f = .ok ts) ↔ ∀ c ∈ l, ∃ t, f c = .ok t := by
  induction l with
  | nil => simp [pure, Except.pure]
  | cons c l ih =>
    rw [List.mapM_cons]
    constructor
    · rintro ⟨ts, h⟩
      cases hc : f c with
      | error e => rw [hc] at h; cases h
      | ok t =>
        rw [hc] at h
        cases hl : l.mapM f with
        | error e => rw [hl] at h; cases h
        | ok ts' =>
          intro x hx
          rcases List.mem_cons.mp hx with rfl | hx
          · exact ⟨t, hc⟩
          · exact ih.mp ⟨ts', hl⟩ x hx
    · intro h
      obtain ⟨t, ht⟩ := h c (by simp)
      obtain ⟨ts, hts⟩ := ih.mpr fun x hx => h x (by simp [hx])
      exact ⟨t :: ts, by rw [ht, hts]; rfl⟩

theorem mapM_error {ε γ : Type} (f : String → Except ε γ) (l : List String) (e : ε) (h : l.mapM f = .error e) : ∃ c ∈ l, f c = .error e := by
  induction l with
  | nil => cases h
  | cons c l ih =>
    rw [List.mapM_cons] at h
    cases hc : f c with
    | error e' => rw [hc] at h; cases h; exact ⟨c, by simp, hc⟩
    | ok t =>
      rw [hc] at h
      cases hl : l.mapM f with
      | error e' =>
        rw [hl] at h
        cases h
        obtain ⟨x, hx, hx'⟩ := ih hl
        exact ⟨x, by simp [hx], hx'⟩
      | ok ts' => rw [hl] at h; cases h

theorem mapM_get {ε γ : Type} (f : String → Except ε γ) (l : List String) (ts : List γ) (h : l.mapM f = .ok ts) :
    l.length = ts.length ∧ ∀ p ∈ l.zip ts, f p.1 = .ok p.2 := by
  induction l generalizing ts with
  | nil => cases h; simp
  | cons c l ih =>
    rw [List.mapM_cons] at h
    cases hc : f c with
    | error e' => rw [hc] at h; cases h
    | ok t =>
      rw [hc] at h
      cases hl : l.mapM f with
      | error e' => rw [hl] at h; cases h
      | ok ts' =>
        rw [hl] at h
        cases h
        obtain ⟨i1, i2⟩ := ih ts' hl
        refine ⟨by simp [i1], ?_⟩
        intro p hp
        rcases List.mem_cons.mp hp with rfl | hp
        · exact hc
        · exact i2 p hp

/-- C114: a CSV file is opened exactly if no unsupported keyword is given, the first rows are a table of numbers with one column for each name, the
selected columns are among the names (each once), types are given as a string or a dict, the block size is not 0, and `skiprows` is not `None`.
Nothing else of the file is looked at. -/
theorem open_iff (nl : β) (split : Sep → List β → List Cell) (bytes : List β) (names : List String) (g : Cfg) :
    (∃ o, openCsv nl split bytes names g = .ok o) ↔
      GoodKeywords g ∧ GoodStart nl split bytes names g ∧ (selOf g names).Nodup ∧ (selOf g names = [] ∨ g.dtype ≠ .other) ∧
        g.blocksize ≠ 0 ∧ g.skiprows ≠ .none := by
  have hbytes : GoodStart nl split bytes names g → bytes ≠ [] := by
    intro h hb
    obtain ⟨r, rs, h1, -⟩ := h.first
    subst hb
    have : Csv.parse nl g.skipBlank ⟨[], g.skiprows.count, g.nrows.verify⟩ = [] := by
      unfold Csv.parse Csv.dataLines
      cases g.nrows.verify <;> simp [Csv.lines]
    rw [firstRows, this] at h1
    cases h1
  have hty : GoodStart nl split bytes names g → ((∃ ts, (selOf g names).mapM (fun c => typeOf g.dtype
      ((selOf g names).map fun c => (c, infer (colCells names (firstRows nl split bytes g) c))) c) = .ok ts) ↔
      (selOf g names = [] ∨ g.dtype ≠ .other)) := by
    intro hs
    rw [mapM_typeOf_ok]
    cases hd : g.dtype with
    | other =>
      simp only [typeOf, ne_eq, not_true_eq_false, or_false]
      constructor
      · intro h
        cases hl : selOf g names with
        | nil => rfl
        | cons c l =>
          obtain ⟨t, ht⟩ := h c (by simp [hl])
          cases ht
      · intro h c hc
        rw [h] at hc
        cases hc
    | str t => simp [typeOf]
    | dict l =>
      simp only [typeOf, ne_eq, reduceCtorEq, not_false_eq_true, or_true, iff_true]
      intro c hc
      cases dictGet l c with
      | some t => exact ⟨t, rfl⟩
      | none => exact ⟨_, by rw [dictGet_map _ _ _ hc]⟩
  unfold openCsv
  constructor
  · rintro ⟨o, h⟩
    cases hc : checkCfg g with
    | error e => rw [hc] at h; cases h
    | ok u =>
      rw [hc] at h
      dsimp only at h
      cases hv : verify nl split bytes names g with
      | error e => rw [hv] at h; cases h
      | ok l =>
        rw [hv] at h
        dsimp only at h
        obtain ⟨v1, v2⟩ := (verify_iff nl split bytes names g l).mp hv
        cases hm : (selOf g names).mapM fun c => typeOf g.dtype l c with
        | error e => rw [hm] at h; cases h
        | ok ts =>
          rw [hm] at h
          dsimp only at h
          by_cases hn : (selOf g names).Nodup
          · rw [if_neg (by simp [hn])] at h
            unfold partition at h
            by_cases hb : g.blocksize = 0
            · rw [if_pos hb] at h; cases h
            rw [if_neg hb] at h
            by_cases hk : g.skiprows = .none ∧ bytes ≠ []
            · rw [if_pos hk] at h; cases h
            refine ⟨(checkCfg_iff g).1.mp hc, v1, hn, (hty v1).mp ⟨ts, v2 ▸ hm⟩, hb, fun hk' => hk ⟨hk', hbytes v1⟩⟩
          · rw [if_pos (by simp [hn])] at h
            cases h
  · rintro ⟨h1, h2, h3, h4, h5, h6⟩
    rw [(checkCfg_iff g).1.mpr h1]
    dsimp only
    rw [(verify_iff nl split bytes names g _).mpr ⟨h2, rfl⟩]
    dsimp only
    obtain ⟨ts, hts⟩ := (hty h2).mpr h4
    rw [hts]
    dsimp only
    rw [if_neg (by simp [h3]), partition, if_neg h5, if_neg (fun hk => h6 hk.1)]
    exact ⟨_, rfl⟩

/-- C114: whatever is wrong is a ValueError, except types that are neither a string nor a dict and `skiprows=None`, which are a TypeError. -/
theorem open_errors (nl : β) (split : Sep → List β → List Cell) (bytes : List β) (names : List String) (g : Cfg) (e : Err)
    (h : openCsv nl split bytes names g = .error e) :
    e = .valueError ∨ (e = .typeError ∧ GoodKeywords g ∧ GoodStart nl split bytes names g ∧ (g.dtype = .other ∨ g.skiprows = .none)) := by
  unfold openCsv at h
  cases hc : checkCfg g with
  | error e' =>
    rw [hc] at h
    cases h
    left
    have := (checkCfg_iff g).2 (by rw [hc]; simp)
    rw [hc] at this
    exact Except.error.inj this
  | ok u =>
    rw [hc] at h
    dsimp only at h
    cases hv : verify nl split bytes names g with
    | error e' => rw [hv] at h; cases h; exact Or.inl (verify_error nl split bytes names g _ hv)
    | ok l =>
      rw [hv] at h
      dsimp only at h
      obtain ⟨v1, v2⟩ := (verify_iff nl split bytes names g l).mp hv
      have k1 := (checkCfg_iff g).1.mp hc
      cases hm : (selOf g names).mapM fun c => typeOf g.dtype l c with
      | error e' =>
        rw [hm] at h
        cases h
        obtain ⟨c, hcm, hc'⟩ := mapM_error _ _ _ hm
        unfold typeOf at hc'
        split at hc'
        · cases hc'; right; exact ⟨rfl, k1, v1, Or.inl (by assumption)⟩
        · cases hc'
        · split at hc'
          · cases hc'
          · split at hc'
            · cases hc'
            · cases hc'; exact Or.inl rfl
      | ok ts =>
        rw [hm] at h
        dsimp only at h
        by_cases hn : (selOf g names).Nodup
        · rw [if_neg (by simp [hn])] at h
          unfold partition at h
          by_cases hb : g.blocksize = 0
          · rw [if_pos hb] at h; cases h; exact Or.inl rfl
          rw [if_neg hb] at h
          by_cases hk : g.skiprows = .none ∧ bytes ≠ []
          · rw [if_pos hk] at h; cases h; right; exact ⟨rfl, k1, v1, Or.inr hk.1⟩
          rw [if_neg hk] at h
          cases h
        · rw [if_pos (by simp [hn])] at h
          cases h; exact Or.inl rfl

/-- What an opened file is. -/
theorem open_fields (nl : β) (split : Sep → List β → List Cell) (bytes : List β) (names : List String) (g : Cfg) (o : File β)
    (h : openCsv nl split bytes names g = .ok o) :
    o.names = names ∧ o.sel = selOf g names ∧ o.usecols = g.usecols.isSome ∧ o.sep = sepOf g ∧ o.engine = g.engine ∧ o.skipBlank = g.skipBlank ∧
    o.parts = Csv.makePartitions nl bytes g.blocksize g.skipBlank g.skiprows.count g.nrows.parts ∧ o.size = Csv.csvSize o.parts ∧
    (∃ ts : List DT, (selOf g names).mapM (fun c => typeOf g.dtype
      ((selOf g names).map fun c => (c, infer (colCells names (firstRows nl split bytes g) c))) c) = .ok ts ∧ o.dtype = (selOf g names).zip ts) := by
  obtain ⟨h1, h2, h3, h4, h5, h6⟩ := (open_iff nl split bytes names g).mp ⟨o, h⟩
  unfold openCsv at h
  rw [(checkCfg_iff g).1.mpr h1] at h
  dsimp only at h
  rw [(verify_iff nl split bytes names g _).mpr ⟨h2, rfl⟩] at h
  dsimp only at h
  split at h
  · cases h
  rename_i ts hts
  rw [if_neg (by simp [h3]), partition, if_neg h5, if_neg (fun hk => h6 hk.1)] at h
  cases h
  exact ⟨rfl, rfl, rfl, rfl, rfl, rfl, rfl, rfl, ts, hts, rfl⟩

/-- C114: the columns are `usecols` in the order given (all the names by default), and the types follow the rule. -/
theorem open_types (nl : β) (split : Sep → List β → List Cell) (bytes : List β) (names : List String) (g : Cfg) (o : File β)
    (h : openCsv nl split bytes names g = .ok o) :
    o.dtype.map Prod.fst = g.usecols.getD names ∧ ∀ p ∈ o.dtype, TypeRule nl split bytes names g p.1 p.2 := by
  obtain ⟨h1, h2, h3, h4, h5, h6⟩ := (open_iff nl split bytes names g).mp ⟨o, h⟩
  obtain ⟨-, -, -, -, -, -, -, -, ts, hts, hd⟩ := open_fields nl split bytes names g o h
  obtain ⟨k1, k2⟩ := mapM_get _ _ _ hts
  rw [hd]
  refine ⟨by rw [List.map_fst_zip (by omega)]; rfl, ?_⟩
  intro p hp
  have hp' := k2 p hp
  have hmem : p.1 ∈ selOf g names := (List.of_mem_zip hp).1
  unfold TypeRule
  unfold typeOf at hp'
  split
  · rename_i d hd'
    rw [hd'] at hp'
    exact (Except.ok.inj hp').symm
  · rename_i hd'
    rw [hd'] at hp'
    cases hp'
  · rename_i l hd'
    rw [hd'] at hp'
    dsimp only at hp'
    cases hg : dictGet l p.1 with
    | some d =>
      rw [hg] at hp'
      refine ⟨fun d' hd'' => ?_, fun hn => by cases hn⟩
      rw [← Option.some.inj hd'']
      exact (Except.ok.inj hp').symm
    | none =>
      rw [hg, dictGet_map _ _ _ hmem] at hp'
      refine ⟨fun d' hd'' => (by cases hd''), fun _ => ?_⟩
      have ht : infer (colCells names (firstRows nl split bytes g) p.1) = p.2 := Except.ok.inj hp'
      have hnum := h2.numbers p.1 hmem
      cases hi : infer (colCells names (firstRows nl split bytes g) p.1) with
      | i8 =>
        left
        rw [hi] at ht
        refine ⟨ht.symm, fun r hr => ?_⟩
        obtain ⟨n, hn⟩ := ((infer_spec _).1.mp hi).2 (cellAt names r p.1) ((colCells_mem _ _ _ _).mpr ⟨r, hr, rfl⟩)
        exact ⟨n, hn⟩
      | f8 =>
        right
        rw [hi] at ht
        refine ⟨ht.symm, ?_⟩
        by_contra hno
        push Not at hno
        have : infer (colCells names (firstRows nl split bytes g) p.1) = .i8 := by
          rw [(infer_spec _).1]
          refine ⟨?_, ?_⟩
          · obtain ⟨r, rs, e, -⟩ := h2.first
            rw [e]
            simp [colCells]
          · intro c hc
            obtain ⟨r, hr, rfl⟩ := (colCells_mem _ _ _ _).mp hc
            rcases hnum r hr with hn | ⟨q, hq⟩
            · exact hn
            · exact absurd hq (hno r hr q)
        rw [this] at hi
        cases hi
      | obj =>
        rcases (infer_spec _).2.mp hi with hx | ⟨s, hs⟩
        · obtain ⟨r, rs, e, -⟩ := h2.first
          rw [e] at hx
          simp [colCells] at hx
        · obtain ⟨r, hr, hx⟩ := (colCells_mem _ _ _ _).mp hs
          rcases hnum r hr with ⟨n, hn⟩ | ⟨q, hq⟩
          · rw [hx] at hn; cases hn
          · rw [hx] at hq; cases hq

end NBK.CsvObj
