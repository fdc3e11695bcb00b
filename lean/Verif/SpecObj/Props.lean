import Verif.SpecObj.Model
import Verif.Plain.Props
import Mathlib.Data.List.Nodup
import Mathlib.Tactic.ByContra

/-!
# C116: meta-data of a catalog of several species and its mesh
-/
set_option linter.unusedSimpArgs false
namespace NBK.SpecObj
open NBK.Plain (Tok Dict put get del update get_put get_update get_none)

/-- The name holds no dot. -/
def NoDot (s : Tok) : Prop := '.' ∉ s

theorem prefix_inj (s s' k k' : Tok) (hs : NoDot s) (hs' : NoDot s') (h : s ++ '.' :: k = s' ++ '.' :: k') : s = s' ∧ k = k' := by
  induction s generalizing s' with
  | nil =>
    cases s' with
    | nil => simpa using h
    | cons c s' =>
      simp only [List.nil_append, List.cons_append, List.cons.injEq] at h
      exact absurd (by rw [h.1]; simp) hs'
  | cons a s ih =>
    cases s' with
    | nil =>
      simp only [List.nil_append, List.cons_append, List.cons.injEq] at h
      exact absurd (by rw [h.1]; simp) hs
    | cons c s' =>
      simp only [List.cons_append, List.cons.injEq] at h
      obtain ⟨h1, h2⟩ := h
      obtain ⟨h3, h4⟩ := ih s' (fun hm => hs (List.mem_cons_of_mem _ hm)) (fun hm => hs' (List.mem_cons_of_mem _ hm)) h2
      exact ⟨by rw [h1, h3], h4⟩

theorem get_map_val {α β : Type} (f : α → β) (d : Dict α) (k : Tok) : get k (d.map fun q => (q.1, f q.2)) = (get k d).map f := by
  induction d with
  | nil => rfl
  | cons q d ih =>
    by_cases h : q.1 = k
    · simp [Plain.get, h]
    · simp [Plain.get, h, ih]

theorem get_prefixed (n k : Tok) (d : Dict Meta) : get (n ++ '.' :: k) (prefixed n d) = (get k d).map Attr.val := by
  induction d with
  | nil => rfl
  | cons q d ih =>
    by_cases h : q.1 = k
    · simp [prefixed, Plain.get, h]
    · have : ¬ (n ++ '.' :: q.1 = n ++ '.' :: k) := by simpa using h
      simp only [prefixed, List.map_cons, Plain.get, this, h, if_false] at ih ⊢
      exact ih

theorem get_prefixed_other (n x : Tok) (d : Dict Meta) (h : ∀ k, x ≠ n ++ '.' :: k) : get x (prefixed n d) = none := by
  apply get_none
  simp only [prefixed, List.map_map, List.mem_map, Function.comp]
  rintro ⟨q, _, e⟩
  exact h q.1 e.symm

theorem prefixed_nodup (n : Tok) (d : Dict Meta) (h : (d.map Prod.fst).Nodup) : ((prefixed n d).map Prod.fst).Nodup := by
  simp only [prefixed, List.map_map]
  have : (Prod.fst ∘ fun q : Tok × Meta => (n ++ '.' :: q.1, Attr.val q.2)) = (fun t => n ++ '.' :: t) ∘ Prod.fst := rfl
  rw [this, ← List.map_map]
  exact List.Nodup.map (fun a b e => by simpa using e) h

theorem get_speciesAttrs_other (l : List (Tok × Cat)) (d : Dict Attr) (x : Tok) (hk : ∀ q ∈ l, (q.2.attrs.map Prod.fst).Nodup)
    (h : ∀ q ∈ l, ∀ k, x ≠ q.1 ++ '.' :: k) : get x (speciesAttrs l d) = get x d := by
  induction l generalizing d with
  | nil => rfl
  | cons q l ih =>
    obtain ⟨n, c⟩ := q
    rw [speciesAttrs, ih _ (fun q hq => hk q (by simp [hq])) (fun q hq => h q (by simp [hq]))]
    rw [get_update _ _ (prefixed_nodup n c.attrs (hk (n, c) (by simp))), get_prefixed_other n x c.attrs (h (n, c) (by simp)), Option.none_or]

theorem get_speciesAttrs (l : List (Tok × Cat)) (d : Dict Attr) (hk : ∀ q ∈ l, (q.2.attrs.map Prod.fst).Nodup)
    (hn : (l.map Prod.fst).Nodup) (hd : ∀ q ∈ l, NoDot q.1) (s : Tok) (c : Cat) (hm : (s, c) ∈ l) (k : Tok)
    (h0 : get (s ++ '.' :: k) d = none) : get (s ++ '.' :: k) (speciesAttrs l d) = (get k c.attrs).map Attr.val := by
  induction l generalizing d with
  | nil => cases hm
  | cons q l ih =>
    obtain ⟨n, c'⟩ := q
    rw [speciesAttrs]
    simp only [List.map_cons, List.nodup_cons] at hn
    have hnd := prefixed_nodup n c'.attrs (hk (n, c') (by simp))
    rcases List.mem_cons.1 hm with h | h
    · cases h
      rw [get_speciesAttrs_other]
      · rw [get_update _ _ hnd, get_prefixed, h0]
        cases get k c.attrs <;> rfl
      · exact fun q hq => hk q (by simp [hq])
      · intro q hq k' e
        have := (prefix_inj s q.1 k k' (hd (s, c) (by simp)) (hd q (by simp [hq])) e).1
        exact hn.1 (List.mem_map.2 ⟨q, hq, this.symm⟩)
    · apply ih _ (fun q hq => hk q (by simp [hq])) hn.2 (fun q hq => hd q (by simp [hq])) h
      rw [get_update _ _ hnd, get_prefixed_other, h0]
      · rfl
      intro k' e
      have := (prefix_inj s n k k' (hd (s, c) (by simp [h])) (hd (n, c') (by simp)) e).1
      exact hn.1 (List.mem_map.2 ⟨(s, c), h, this⟩)

/-- When the constructor succeeds: the names are distinct, there is one for each catalog and at least one catalog, and the catalogs share
their communicator. -/
theorem multi_ok_iff (ls : Lists) (ref : Nat) (cats : List Cat) (kwargs : Dict Attr) :
    (∃ m, multi ls ref cats kwargs = .ok m) ↔
      (ls.getD ref []).Nodup ∧ cats ≠ [] ∧ (ls.getD ref []).length = cats.length ∧ ∀ c ∈ cats, ∀ c' ∈ cats, c.comm = c'.comm := by
  unfold multi
  dsimp only
  by_cases h1 : (ls.getD ref []).Nodup
  · rw [if_neg (not_not_intro h1)]
    cases cats with
    | nil =>
      constructor
      · rintro ⟨m, h⟩
        dsimp only at h
        split at h <;> cases h
      · rintro ⟨_, h, _⟩
        exact absurd rfl h
    | cons c rest =>
      dsimp only
      by_cases h2 : rest.any (fun x => x.comm ≠ c.comm) = true
      · rw [if_pos h2]
        constructor
        · rintro ⟨m, h⟩; cases h
        · rintro ⟨_, _, _, h⟩
          rw [List.any_eq_true] at h2
          obtain ⟨x, hx, hne⟩ := h2
          exact absurd (h x (by simp [hx]) c (by simp)) (by simpa using hne)
      · rw [if_neg h2]
        have h3 : ∀ x ∈ c :: rest, x.comm = c.comm := by
          intro x hx
          rcases List.mem_cons.1 hx with rfl | hx
          · rfl
          · by_contra hne
            exact h2 (List.any_eq_true.2 ⟨x, hx, by simpa using hne⟩)
        by_cases h4 : (ls.getD ref []).length = (c :: rest).length
        · rw [if_neg (not_not_intro h4)]
          exact ⟨fun _ => ⟨h1, by simp, h4, fun x hx y hy => (h3 x hx).trans (h3 y hy).symm⟩, fun _ => ⟨_, rfl⟩⟩
        · rw [if_pos h4]
          constructor
          · rintro ⟨m, h⟩; cases h
          · rintro ⟨_, _, h, _⟩
            exact absurd h h4
  · rw [if_pos h1]
    constructor
    · rintro ⟨m, h⟩; cases h
    · rintro ⟨h, _⟩
      exact absurd h h1

/-- What the constructor makes. -/
theorem multi_eq (ls : Lists) (ref : Nat) (cats : List Cat) (kwargs : Dict Attr) (m : Multi) (h : multi ls ref cats kwargs = .ok m) :
    m.attrs = update (speciesAttrs ((ls.getD ref []).zip cats) [(sSpecies, .names ref)]) kwargs ∧
      m.sources = sourcesOf ((ls.getD ref []).zip cats) ∧ ∀ c ∈ cats, c.comm = m.comm := by
  have hall := (multi_ok_iff ls ref cats kwargs).1 ⟨m, h⟩
  unfold multi at h
  dsimp only at h
  split at h
  · cases h
  · cases cats with
    | nil => dsimp only at h; split at h <;> cases h
    | cons c rest =>
      dsimp only at h
      split at h
      · cases h
      · split at h
        · cases h
        · cases h
          exact ⟨rfl, rfl, fun x hx => hall.2.2.2 x hx c (by simp)⟩

/-- The error of the constructor is a ValueError, except without names and catalogs. -/
theorem multi_errors (ls : Lists) (ref : Nat) (cats : List Cat) (kwargs : Dict Attr) (e : Err) (h : multi ls ref cats kwargs = .error e) :
    (e = .valueError ∧ ¬ (ls.getD ref [] = [] ∧ cats = [])) ∨ (e = .indexError ∧ ls.getD ref [] = [] ∧ cats = []) := by
  unfold multi at h
  dsimp only at h
  split at h
  · rename_i hn
    cases h
    refine .inl ⟨rfl, fun hh => hn ?_⟩
    rw [hh.1]; simp
  · cases cats with
    | nil =>
      dsimp only at h
      split at h
      · rename_i hl
        cases h
        refine .inl ⟨rfl, fun hh => hl ?_⟩
        rw [hh.1]; rfl
      · rename_i hl
        cases h
        simp only [ne_eq, Decidable.not_not] at hl
        exact .inr ⟨rfl, List.length_eq_zero_iff.1 hl, rfl⟩
    | cons c rest =>
      dsimp only at h
      split at h
      · cases h; exact .inl ⟨rfl, by simp⟩
      · split at h
        · cases h; exact .inl ⟨rfl, by simp⟩
        · cases h

/-- C116: in the meta-data of the whole, the attribute `k` of the species `s` is found under `s.k`, unless a keyword has that name. -/
theorem attrs_of_species_partial (ls : Lists) (ref : Nat) (cats : List Cat) (kwargs : Dict Attr) (m : Multi)
    (h : multi ls ref cats kwargs = .ok m) (hd : ∀ s ∈ ls.getD ref [], NoDot s) (hk : ∀ c ∈ cats, (c.attrs.map Prod.fst).Nodup)
    (hkw : (kwargs.map Prod.fst).Nodup) (s : Tok) (c : Cat) (hm : (s, c) ∈ (ls.getD ref []).zip cats) (k : Tok) :
    get (s ++ '.' :: k) m.attrs = (get (s ++ '.' :: k) kwargs).or ((get k c.attrs).map Attr.val) := by
  obtain ⟨hnd, _, hlen, _⟩ := (multi_ok_iff ls ref cats kwargs).1 ⟨m, h⟩
  rw [(multi_eq ls ref cats kwargs m h).1, get_update _ _ hkw]
  have hz : ((ls.getD ref []).zip cats).map Prod.fst = ls.getD ref [] := by
    rw [List.map_fst_zip (by omega)]
  rw [get_speciesAttrs ((ls.getD ref []).zip cats) _ (fun q hq => hk q.2 (List.of_mem_zip hq).2) (by rw [hz]; exact hnd)
    (fun q hq => hd q.1 (List.of_mem_zip hq).1) s c hm k]
  have : sSpecies ≠ s ++ '.' :: k := by
    intro e
    have h1 : '.' ∈ sSpecies := by rw [e]; simp
    exact absurd h1 (by decide)
  simp [Plain.get, this]

/-- Names without a dot come from the keywords only, apart from the list of species. -/
theorem attrs_own (ls : Lists) (ref : Nat) (cats : List Cat) (kwargs : Dict Attr) (m : Multi) (h : multi ls ref cats kwargs = .ok m)
    (hk : ∀ c ∈ cats, (c.attrs.map Prod.fst).Nodup) (hkw : (kwargs.map Prod.fst).Nodup) (x : Tok) (hx : NoDot x) :
    get x m.attrs = (get x kwargs).or (if x = sSpecies then some (.names ref) else none) := by
  rw [(multi_eq ls ref cats kwargs m h).1, get_update _ _ hkw]
  rw [get_speciesAttrs_other ((ls.getD ref []).zip cats) _ x (fun q hq => hk q.2 (List.of_mem_zip hq).2)
    (fun q _ k e => hx (by rw [e]; simp))]
  by_cases e : sSpecies = x
  · simp [Plain.get, e]
  · have e' : ¬ x = sSpecies := fun h => e h.symm
    simp [Plain.get, e, e']

/-- The values that count for `name`: the keyword, then those of the species that have one, in their order. -/
def values (name : Tok) (cats : List Cat) (kwargs : Dict Attr) : List Meta :=
  (match get name kwargs with | some a => [valOf a] | none => []) ++ cats.filterMap fun c => get name c.attrs

theorem found_eq (ls : Lists) (ref : Nat) (cats : List Cat) (kwargs : Dict Attr) (m : Multi)
    (h : multi ls ref cats kwargs = .ok m) (hd : ∀ s ∈ ls.getD ref [], NoDot s) (hk : ∀ c ∈ cats, (c.attrs.map Prod.fst).Nodup)
    (hkw : (kwargs.map Prod.fst).Nodup) (name : Tok) (hn : NoDot name) (hns : name ≠ sSpecies)
    (hno : ∀ s ∈ ls.getD ref [], get (s ++ '.' :: name) kwargs = none) :
    found name m.attrs (ls.getD ref []) = values name cats kwargs := by
  obtain ⟨hnd, _, hlen, _⟩ := (multi_ok_iff ls ref cats kwargs).1 ⟨m, h⟩
  unfold found values
  rw [attrs_own ls ref cats kwargs m h hk hkw name hn, if_neg hns]
  congr 1
  · cases get name kwargs <;> rfl
  · have hz : ((ls.getD ref []).zip cats).map Prod.fst = ls.getD ref [] := by rw [List.map_fst_zip (by omega)]
    have hz2 : ((ls.getD ref []).zip cats).map Prod.snd = cats := by rw [List.map_snd_zip (by omega)]
    have key : ∀ q ∈ (ls.getD ref []).zip cats, (get (q.1 ++ '.' :: name) m.attrs).map valOf = get name q.2.attrs := by
      intro q hq
      rw [attrs_of_species_partial ls ref cats kwargs m h hd hk hkw q.1 q.2 hq name, hno q.1 (List.of_mem_zip hq).1]
      cases get name q.2.attrs <;> rfl
    have e1 : (ls.getD ref []).filterMap (fun s => (get (s ++ '.' :: name) m.attrs).map valOf) =
        ((ls.getD ref []).zip cats).filterMap (fun q => (get (q.1 ++ '.' :: name) m.attrs).map valOf) := by
      conv_lhs => rw [← hz]
      rw [List.filterMap_map]
      rfl
    have e2 : cats.filterMap (fun c => get name c.attrs) = ((ls.getD ref []).zip cats).filterMap (fun q => get name q.2.attrs) := by
      conv_lhs => rw [← hz2]
      rw [List.filterMap_map]
      rfl
    rw [e1, e2]
    exact List.filterMap_congr key

theorem equalAll_refl (v : Meta) : equalAll v v = some true := by
  cases v with
  | none => rfl
  | num x => simp [equalAll]
  | vec l => simp [equalAll]
  | other k => simp [equalAll]

/-- C116: the box size (or any other attribute) that `to_mesh` takes when none is given: the first of the values of keyword and species, if there
is one and all of them are equal to it as numpy arrays; otherwise a ValueError. -/
theorem meta_spec_partial (ls : Lists) (ref : Nat) (cats : List Cat) (kwargs : Dict Attr) (m : Multi)
    (h : multi ls ref cats kwargs = .ok m) (hd : ∀ s ∈ ls.getD ref [], NoDot s) (hk : ∀ c ∈ cats, (c.attrs.map Prod.fst).Nodup)
    (hkw : (kwargs.map Prod.fst).Nodup) (name : Tok) (hn : NoDot name) (hns : name ≠ sSpecies)
    (hno : ∀ s ∈ ls.getD ref [], get (s ++ '.' :: name) kwargs = none) :
    (∀ v, checkMeta name m.attrs (ls.getD ref []) = .ok v ↔
      (values name cats kwargs).head? = some v ∧ ∀ w ∈ values name cats kwargs, equalAll v w = some true) ∧
    (∀ e, checkMeta name m.attrs (ls.getD ref []) = .error e → e = .valueError) := by
  rw [checkMeta, found_eq ls ref cats kwargs m h hd hk hkw name hn hns hno]
  cases hv : values name cats kwargs with
  | nil =>
    exact ⟨fun v => ⟨(fun h => by cases h), (fun h => by simp at h)⟩, (fun e h => by cases h; rfl)⟩
  | cons v rest =>
    dsimp only
    by_cases ha : (v :: rest).all (fun w => equalAll v w == some true) = true
    · rw [if_pos ha]
      refine ⟨fun v' => ⟨fun h => ?_, fun h => ?_⟩, fun e h => by cases h⟩
      · cases h
        refine ⟨rfl, fun w hw => ?_⟩
        simpa using (List.all_eq_true.1 ha) w hw
      · simp only [List.head?_cons, Option.some.injEq] at h
        rw [h.1]
    · rw [if_neg ha]
      refine ⟨fun v' => ⟨(fun h => by cases h), fun h => ?_⟩, (fun e h => by cases h; rfl)⟩
      simp only [List.head?_cons, Option.some.injEq] at h
      obtain ⟨rfl, h⟩ := h
      exact absurd (List.all_eq_true.2 fun w hw => by simpa using h w hw) ha

/-- For numbers the values agree if they are the same number. -/
theorem equal_numbers (x y : ℚ) : equalAll (.num x) (.num y) = some true ↔ x = y := by simp [equalAll]

/-- Vectors of the same length agree if they are equal; a number agrees with a vector if all components are that number. -/
theorem equal_vectors (l l' : List ℚ) (x : ℚ) : (l.length = l'.length → (equalAll (.vec l) (.vec l') = some true ↔ l = l')) ∧
    (equalAll (.num x) (.vec l) = some true ↔ ∀ y ∈ l, x = y) := by
  constructor
  · intro h
    simp [equalAll, h]
  · simp [equalAll, List.all_eq_true]

theorem sourcesOf_get (l : List (Tok × Cat)) (hn : (l.map Prod.fst).Nodup) (s : Tok) (c : Cat) (h : (s, c) ∈ l) :
    get s (sourcesOf l) = some c := by
  have gen : ∀ (l : List (Tok × Cat)) (d : Dict Cat), (l.map Prod.fst).Nodup → ∀ s,
      get s (l.foldl (fun d q => put q.1 q.2 d) d) = (get s l).or (get s d) :=
    fun l d hn s => get_update d l hn s
  have hg : get s l = some c := by
    clear gen
    induction l with
    | nil => cases h
    | cons q l ih =>
      simp only [List.map_cons, List.nodup_cons] at hn
      rcases List.mem_cons.1 h with h | h
      · rw [← h]; simp [Plain.get]
      · have : q.1 ≠ s := fun e => hn.1 (List.mem_map.2 ⟨(s, c), h, e.symm⟩)
        simp [Plain.get, this, ih hn.2 h]
  rw [sourcesOf, gen l [] hn s, hg, Option.some_or]

/-- C116: indexing with the name of a species gives its catalog, with `species/column` its column, whenever these are names without a
slash. -/
theorem getitem_spec_partial (ls : Lists) (ref : Nat) (cats : List Cat) (kwargs : Dict Attr) (m : Multi)
    (h : multi ls ref cats kwargs = .ok m) (hk : ∀ c ∈ cats, (c.attrs.map Prod.fst).Nodup) (hkw : (kwargs.map Prod.fst).Nodup)
    (hsp : get sSpecies kwargs = none) (s : Tok) (c : Cat) (hm : (s, c) ∈ (ls.getD ref []).zip cats) :
    species ls m = .ok (ls.getD ref []) ∧ getitem ls m s = .ok (.catalog c) ∧
    ((∀ t ∈ ls.getD ref [], '/' ∉ t) → ∀ col, '/' ∉ col →
      getitem ls m (s ++ '/' :: col) = if col ∈ c.columns then .ok (.column c col) else .error .valueError) := by
  obtain ⟨hnd, _, hlen, _⟩ := (multi_ok_iff ls ref cats kwargs).1 ⟨m, h⟩
  have hz : ((ls.getD ref []).zip cats).map Prod.fst = ls.getD ref [] := by rw [List.map_fst_zip (by omega)]
  have hs : species ls m = .ok (ls.getD ref []) := by
    have := attrs_own ls ref cats kwargs m h hk hkw sSpecies (by unfold NoDot; decide)
    rw [hsp] at this
    simp only [if_true, Option.none_or] at this
    rw [species, this]
  have hsrc : source m s = .ok c := by
    rw [source, (multi_eq ls ref cats kwargs m h).2.1, sourcesOf_get _ (by rw [hz]; exact hnd) s c hm]
  have hmem : s ∈ ls.getD ref [] := (List.of_mem_zip hm).1
  refine ⟨hs, ?_, ?_⟩
  · rw [getitem, hs]
    simp only [bind, Except.bind, hmem, if_true, hsrc]
  · intro hsl col hcol
    have hns : s ++ '/' :: col ∉ ls.getD ref [] := fun hmm => hsl _ hmm (by simp)
    have hsplit0 : ∀ col : Tok, '/' ∉ col → splitSlash col = [col] := by
      intro col hc
      induction col with
      | nil => rfl
      | cons a col ih =>
        simp only [List.mem_cons, not_or] at hc
        rw [splitSlash, if_neg (fun e => hc.1 e.symm), ih hc.2]
    have hsplit : ∀ t : Tok, '/' ∉ t → splitSlash (t ++ '/' :: col) = [t, col] := by
      intro t ht
      induction t with
      | nil => rw [List.nil_append, splitSlash, if_pos rfl, hsplit0 col hcol]
      | cons a t ih =>
        simp only [List.mem_cons, not_or] at ht
        rw [List.cons_append, splitSlash, if_neg (fun e => ht.1 e.symm), ih ht.2]
    rw [getitem, hs]
    simp only [bind, Except.bind, hns, if_false]
    rw [hsplit s (hsl s hmem)]
    dsimp only
    rw [if_pos hmem]
    simp only [hsrc]

/-- The columns are those of the species in their order, each with its prefix. -/
theorem columns_spec (ls : Lists) (ref : Nat) (cats : List Cat) (kwargs : Dict Attr) (m : Multi)
    (h : multi ls ref cats kwargs = .ok m) (hk : ∀ c ∈ cats, (c.attrs.map Prod.fst).Nodup) (hkw : (kwargs.map Prod.fst).Nodup)
    (hsp : get sSpecies kwargs = none) :
    columns ls m = .ok (((ls.getD ref []).zip cats).flatMap fun q => q.2.columns.map fun x => q.1 ++ '/' :: x) := by
  obtain ⟨hnd, hne, hlen, _⟩ := (multi_ok_iff ls ref cats kwargs).1 ⟨m, h⟩
  have hz : ((ls.getD ref []).zip cats).map Prod.fst = ls.getD ref [] := by rw [List.map_fst_zip (by omega)]
  have hs : species ls m = .ok (ls.getD ref []) := by
    have := attrs_own ls ref cats kwargs m h hk hkw sSpecies (by unfold NoDot; decide)
    rw [hsp] at this
    simp only [if_true, Option.none_or] at this
    rw [species, this]
  have hsrc : ∀ q ∈ (ls.getD ref []).zip cats, source m q.1 = .ok q.2 := by
    intro q hq
    rw [source, (multi_eq ls ref cats kwargs m h).2.1, sourcesOf_get _ (by rw [hz]; exact hnd) q.1 q.2 hq]
  rw [columns, hs]
  simp only [Except.bind]
  conv_lhs => rw [← hz]
  generalize (ls.getD ref []).zip cats = l at hsrc
  clear hz
  induction l with
  | nil => rfl
  | cons q l ih =>
    rw [List.map_cons, columnsOf, hsrc q (by simp), ih (fun q hq => hsrc q (by simp [hq]))]
    rfl

end NBK.SpecObj
