import Verif.HaloObj.Props

/-!
# C120: the table for halotools, subsets of halos, HOD models
-/
set_option linter.unusedSimpArgs false
namespace NBK.HaloObj

variable {C : Type}

theorem key_ne (m t : String) (c : Char) (p : String) (hp : p.toList = ['h', 'a', 'l', 'o', '_', c]) (h : t.toList[5]? ≠ some c) : p ++ m ≠ t := by
  intro x
  apply h
  rw [← x, String.toList_append, hp]
  rfl

/-- The names of the fixed columns of the table. -/
def fixedNames : List String := ["halo_x", "halo_y", "halo_z", "halo_vx", "halo_vy", "halo_vz", "halo_nfw_conc", "halo_id", "halo_hostid", "halo_upid", "halo_local_id"]

def metaNames : List String := ["cosmology", "redshift", "Lbox", "particle_mass", "mdef"]

theorem keys_ne (m : String) : (∀ t ∈ fixedNames ++ metaNames, ("halo_m" ++ m) ≠ t) ∧ (∀ t ∈ fixedNames ++ metaNames, ("halo_r" ++ m) ≠ t) ∧
    ("halo_m" ++ m) ≠ ("halo_r" ++ m) := by
  refine ⟨?_, ?_, ?_⟩
  · intro t ht
    have : ∀ t ∈ fixedNames ++ metaNames, t.toList[5]? ≠ some 'm' := by decide +kernel
    exact key_ne m t 'm' _ rfl (this t ht)
  · intro t ht
    have : ∀ t ∈ fixedNames ++ metaNames, t.toList[5]? ≠ some 'r' := by decide +kernel
    exact key_ne m t 'r' _ rfl (this t ht)
  · refine key_ne m _ 'm' _ rfl ?_
    rw [String.toList_append, show "halo_r".toList = ['h', 'a', 'l', 'o', '_', 'r'] from rfl]
    simp

theorem index_flat : ∀ (sizes : List Nat) (o : Nat), (index o sizes).flatten = (List.range sizes.sum).map (fun i : Nat => ((o + i : Nat) : ℚ)) ∧
    (index o sizes).map List.length = sizes
  | [], o => by simp [index]
  | n :: l, o => by
    obtain ⟨h1, h2⟩ := index_flat l (o + n)
    refine ⟨?_, ?_⟩
    · rw [index, List.flatten_cons, h1, List.sum_cons, List.range_add, List.map_append, List.map_map]
      congr 1
      apply List.map_congr_left
      intro i _
      simp [Nat.add_assoc]
    · simp [index, h2]

/-- The attributes that the constructor sets. -/
structure Fresh (h : Halo C) (z : ℚ) (mdef : String) : Prop where
  hz : h.attrs "redshift" = some (.num z)
  hm : h.attrs "mdef" = some (.text mdef)
  hk : h.attrs "halo_mass_key" = some (.text ("halo_m" ++ mdef))
  hr : h.attrs "halo_radius_key" = some (.text ("halo_r" ++ mdef))

/-- The columns of a catalog. -/
structure Reads (e : Env C) (s : Source) (h : Halo C) (P V M R K : Col) : Prop where
  hP : h.read e s "Position" = .ok P
  hV : h.read e s "Velocity" = .ok V
  hM : h.read e s "Mass" = .ok M
  hR : h.read e s "Radius" = .ok R
  hK : h.read e s "Concentration" = .ok K
  wP : P.width = some 3
  wV : V.width = some 3

/-- The table that halotools should get: component and mass columns row by row on the same ranks, global indices, no parents, indices on the rank, metadata. -/
structure IsTable (h : Halo C) (P V M R K : Col) (b : Val) (z : ℚ) (mdef : String) (k : Dict (KW C)) : Prop where
  x : k "halo_x" = some (.arr (P.ranks.map fun l => l.map fun r => r.getD 0 0))
  y : k "halo_y" = some (.arr (P.ranks.map fun l => l.map fun r => r.getD 1 0))
  z' : k "halo_z" = some (.arr (P.ranks.map fun l => l.map fun r => r.getD 2 0))
  vx : k "halo_vx" = some (.arr (V.ranks.map fun l => l.map fun r => r.getD 0 0))
  vy : k "halo_vy" = some (.arr (V.ranks.map fun l => l.map fun r => r.getD 1 0))
  vz : k "halo_vz" = some (.arr (V.ranks.map fun l => l.map fun r => r.getD 2 0))
  mass : k ("halo_m" ++ mdef) = some (.arr (M.ranks.map fun l => l.map fun r => r.headD 0))
  radius : k ("halo_r" ++ mdef) = some (.arr (R.ranks.map fun l => l.map fun r => r.headD 0))
  conc : k "halo_nfw_conc" = some (.arr (K.ranks.map fun l => l.map fun r => r.headD 0))
  ids : ∃ l, k "halo_id" = some (.arr l) ∧ k "halo_hostid" = some (.arr l) ∧ l.map List.length = h.sizes ∧
    l.flatten = (List.range h.sizes.sum).map fun i : Nat => (i : ℚ)
  upid : k "halo_upid" = some (.arr (P.ranks.map fun l => List.replicate l.length (-1)))
  localId : k "halo_local_id" = some (.arr (h.sizes.map fun n => (List.range n).map fun i : Nat => (i : ℚ)))
  cosmology : k "cosmology" = some (.cosmo h.cosmo)
  redshift : k "redshift" = some (.val (.num z))
  box : k "Lbox" = some (.val b)
  particle : k "particle_mass" = some (.val ((h.attrs "particle_mass").getD (.num 1)))
  mdef' : k "mdef" = some (.val (.text mdef))
  others : ∀ t, t ∉ fixedNames ++ metaNames → t ≠ "halo_m" ++ mdef → t ≠ "halo_r" ++ mdef → k t = none

/-- **The table.** A catalog with at least one halo and a box, from the argument or else from the attributes, becomes that table. -/
theorem to_halotools_spec (e : Env C) (s : Source) (h : Halo C) (box : Option Val) (b : Val) (z : ℚ) (mdef : String) (P V M R K : Col) (hf : Fresh h z mdef)
    (hr : Reads e s h P V M R K) (hne : 0 < h.sizes.sum) (hb : box = some b ∨ (box = none ∧ h.attrs "BoxSize" = some b)) :
    ∃ k, h.toHalotools e s box = .ok k ∧ IsTable h P V M R K b z mdef k := by
  have hb' : box.or (h.attrs "BoxSize") = some b := by
    rcases hb with rfl | ⟨rfl, hb⟩
    · rfl
    · simpa using hb
  have hd : h.data e s box = .ok ⟨b, P, V, M, R, K, "halo_m" ++ mdef, "halo_r" ++ mdef⟩ := by
    unfold Halo.data
    rw [if_neg (by omega), hb']
    simp only [hr.hP, hr.hV, hr.hM, hr.hR, hr.hK, Except.bind, Halo.text, hf.hk, hf.hr]
  have hc : ∀ c : Col, c.width = some 3 → ∀ i < 3, c.comp i = .ok (c.ranks.map fun l => l.map fun x => x.getD i 0) := by
    intro c hw i hi
    unfold Col.comp
    rw [hw]
    simp only [if_pos hi]
  obtain ⟨k1, k2, k3⟩ := keys_ne mdef
  have q1 : ∀ t ∈ fixedNames ++ metaNames, (t = "halo_m" ++ mdef) = False := fun t ht => eq_false fun x => k1 t ht x.symm
  have q2 : ∀ t ∈ fixedNames ++ metaNames, (t = "halo_r" ++ mdef) = False := fun t ht => eq_false fun x => k2 t ht x.symm
  have p1 : ∀ t ∈ fixedNames ++ metaNames, ("halo_m" ++ mdef = t) = False := fun t ht => eq_false (k1 t ht)
  have p2 : ∀ t ∈ fixedNames ++ metaNames, ("halo_r" ++ mdef = t) = False := fun t ht => eq_false (k2 t ht)
  have p3 : ("halo_m" ++ mdef = "halo_r" ++ mdef) = False := eq_false k3
  simp only [fixedNames, metaNames, List.cons_append, List.nil_append, List.forall_mem_cons, List.not_mem_nil, false_implies, implies_true, and_true] at q1 q2 p1 p2
  unfold Halo.toHalotools
  simp only [hd, hc P hr.wP 0 (by omega), hc P hr.wP 1 (by omega), hc P hr.wP 2 (by omega), hc V hr.wV 0 (by omega), hc V hr.wV 1 (by omega),
    hc V hr.wV 2 (by omega), Except.bind, hf.hz, hf.hm]
  refine ⟨_, rfl, ?_⟩
  constructor
  case ids =>
    refine ⟨index 0 h.sizes, by simp [Data.table], by simp [Data.table], (index_flat h.sizes 0).2, ?_⟩
    rw [(index_flat h.sizes 0).1]
    simp
  case others =>
    intro t ht h1 h2
    simp only [fixedNames, metaNames, List.cons_append, List.nil_append, List.mem_cons, List.not_mem_nil, or_false, not_or] at ht
    obtain ⟨t1, t2, t3, t4, t5, t6, t7, t8, t9, t10, t11, t12, t13, t14, t15, t16⟩ := ht
    simp [Data.table, Dict.empty, t1, t2, t3, t4, t5, t6, t7, t8, t9, t10, t11, t12, t13, t14, t15, t16, h1, h2]
  case upid =>
    simp only [get_set, Data.table]
    simp [List.map_const']
  case x => simp [Data.table, q1, q2]
  case y => simp [Data.table, q1, q2]
  case z' => simp [Data.table, q1, q2]
  case vx => simp [Data.table, q1, q2]
  case vy => simp [Data.table, q1, q2]
  case vz => simp [Data.table, q1, q2]
  case mass => simp [Data.table, p1, p3, Col.flat]
  case radius => simp [Data.table, p2, Col.flat]
  case conc => simp [Data.table, Col.flat]
  case localId => simp [Data.table]
  case cosmology => simp
  case redshift => simp
  case box => simp
  case particle => simp
  case mdef' => simp

/-- Without halos, or without a box, it is refused. -/
theorem to_halotools_refused (e : Env C) (s : Source) (h : Halo C) (box : Option Val)
    (hn : (∀ n ∈ h.sizes, n = 0) ∨ (box = none ∧ h.attrs "BoxSize" = none)) : h.toHalotools e s box = .error .valueError := by
  have : h.data e s box = .error .valueError := by
    unfold Halo.data
    by_cases hs : h.sizes.sum = 0
    · rw [if_pos hs]
    · rw [if_neg hs]
      rcases hn with hn | ⟨rfl, hb⟩
      · exact absurd ((List.sum_eq_zero_iff_forall_eq_nat).2 hn) hs
      · rw [hb]; rfl
  unfold Halo.toHalotools
  rw [this]
  rfl

/-! ## Subsets -/

theorem fold_reads (e : Env C) (s : Source) (h : Halo C) (masks : List (List Bool)) (f : String → Col) :
    ∀ (l : List String) (d : Dict Col), (∀ n ∈ l, h.read e s n = .ok (f n)) →
      ∃ d', l.foldlM (fun (d : Dict Col) n => (h.read e s n).map fun v => d.set n (v.pick masks)) d = .ok d' ∧
        ∀ n, d' n = if n ∈ l then some ((f n).pick masks) else d n
  | [], d, _ => ⟨d, rfl, by simp⟩
  | a :: l, d, hl => by
    obtain ⟨d', h1, h2⟩ := fold_reads e s h masks f l (d.set a ((f a).pick masks)) (fun n hn => hl n (List.mem_cons_of_mem _ hn))
    refine ⟨d', ?_, ?_⟩
    · rw [List.foldlM_cons, hl a List.mem_cons_self]
      exact h1
    · intro n
      rw [h2 n]
      by_cases hn : n ∈ l
      · simp [hn]
      · by_cases ha : n = a
        · subst ha; simp [hn]
        · simp [hn, ha]

/-- **Subsets.** The halos selected by a boolean index: each of the six columns, and each further column that was set, holds the selected rows of that column, whatever happens
to the source afterwards; the attributes are those of the catalog, and the number of rows on a rank is that of the values that are true. -/
theorem slice_spec (e : Env C) (s : Source) (h : Halo C) (extra : List String) (masks : List (List Bool)) (f : String → Col)
    (hm : masks.map List.length = h.sizes) (hr : ∀ n ∈ hardNames ++ extra, h.read e s n = .ok (f n)) :
    ∃ h', h.slice e s extra masks = .ok h' ∧ h'.attrs = h.attrs ∧ h'.cosmo = h.cosmo ∧ h'.sizes = masks.map (fun m => m.count true) ∧
      (∀ n ∈ hardNames ++ extra, ∀ s' : Source, h'.read e s' n =
        .ok ⟨(f n).width, (masks.zip (f n).ranks).map fun p => ((p.1.zip p.2).filter fun q => q.1).map Prod.snd⟩) ∧
      ∀ n, n ∉ hardNames ++ extra → h'.overrides n = none := by
  obtain ⟨d, h1, h2⟩ := fold_reads e s h masks f (hardNames ++ extra) Dict.empty hr
  refine ⟨{ h with
    sizes := masks.map (fun m => m.count true)
    overrides := d }, ?_, rfl, rfl, rfl, ?_, ?_⟩
  · unfold Halo.slice
    rw [if_neg (by simp [hm]), h1]
    rfl
  · intro n hn s'
    have := h2 n
    rw [if_pos hn] at this
    unfold Halo.read
    simp only [this]
    rfl
  · intro n hn
    have := h2 n
    rw [if_neg hn] at this
    simpa [Dict.empty] using this

/-- An index of the wrong length is refused. -/
theorem slice_refused (e : Env C) (s : Source) (h : Halo C) (extra : List String) (masks : List (List Bool)) (hm : masks.map List.length ≠ h.sizes) :
    h.slice e s extra masks = .error .keyError := by
  unfold Halo.slice
  rw [if_pos hm]

theorem pick_map {α β : Type} (g : α → β) : ∀ (m : List Bool) (l : List α), pick m (l.map g) = (pick m l).map g
  | [], _ => by simp [pick]
  | _ :: _, [] => by simp [pick]
  | b :: m, a :: l => by
    have := pick_map g m l
    cases b
    · simpa [pick] using this
    · simpa [pick] using this

/-- Radius and Concentration of the subset are those of its masses as long as they were not set. -/
theorem slice_consistent (e : Env C) (s : Source) (h h' : Halo C) (extra : List String) (masks : List (List Bool)) (f : String → Col) (z : ℚ) (mdef : String)
    (hz : h.attrs "redshift" = some (.num z)) (hmd : h.attrs "mdef" = some (.text mdef)) (hm : masks.map List.length = h.sizes)
    (hr : ∀ n ∈ hardNames ++ extra, h.read e s n = .ok (f n)) (ho : h.overrides "Radius" = none) (hs : h.slice e s extra masks = .ok h') :
    ∃ M R : Col, h'.read e s "Mass" = .ok M ∧ h'.read e s "Radius" = .ok R ∧
      R.ranks = M.ranks.map fun l => l.map fun row => [e.radius h.cosmo mdef z (row.headD 0)] := by
  obtain ⟨h2, e1, _, _, _, e5, _⟩ := slice_spec e s h extra masks f hm hr
  rw [hs] at e1
  injection e1 with e1
  subst e1
  refine ⟨_, _, e5 "Mass" (by simp [hardNames]) s, e5 "Radius" (by simp [hardNames]) s, ?_⟩
  have hR := (derived_spec e s h z mdef hz hmd).2.2 ho (f "Mass") (hr "Mass" (by simp [hardNames]))
  rw [hr "Radius" (by simp [hardNames])] at hR
  injection hR with hR
  rw [hR]
  simp only [List.map_map]
  generalize (f "Mass").ranks = rows
  have go : ∀ (masks : List (List Bool)) (rows : List (List (List ℚ))) (g : List ℚ → List ℚ),
      (masks.zip (rows.map fun l => l.map g)).map (fun p => pick p.1 p.2) = ((masks.zip rows).map fun p => pick p.1 p.2).map fun l => l.map g := by
    intro masks
    induction masks with
    | nil => simp
    | cons m masks ih =>
      intro rows g
      cases rows with
      | nil => simp
      | cons r rows =>
        simp only [List.map_cons, List.zip_cons_cons, List.cons.injEq]
        exact ⟨pick_map g m r, ih rows g⟩
  simpa [List.map_map, pick] using go masks rows fun row => [e.radius h.cosmo mdef z (row.headD 0)]

/-! ## HOD models -/

/-- The component of the satellites places them by a column of the halos rather than by the analytic relation. -/
def FromCatalog (c : Comp C) : Prop := c.kw "conc_mass_model" = some (.text "direct_from_halo_catalog")

/-- `Zheng07Model.to_halotools`: the occupations use the column of the masses of that definition, the profiles the cosmology of astropy, the redshift and the definition; the
concentration is that of the halos if a key is given and else analytic; the other keywords are handed on, the satellites are modulated unless told otherwise. -/
theorem zheng_spec (cosmo : Cosmo C) (z : ℚ) (mdef : String) (key : Option String) (kw : Dict (HV C))
    (hk : ∀ n ∈ ["prim_haloprop_key", "cenocc_model", "conc_mass_model"], kw n = none) :
    ∃ cen cp sat sp, zheng cosmo z mdef key kw = .ok (.composite cen cp sat sp) ∧
      cen.cls = "Zheng07Cens" ∧ sat.cls = "Zheng07Sats" ∧ cp.cls = "TrivialPhaseSpace" ∧ sp.cls = "NFWPhaseSpace" ∧
      (∀ c ∈ [cen, sat], c.kw "prim_haloprop_key" = some (.text ("halo_m" ++ mdef))) ∧ sat.kw "cenocc_model" = some .cenocc ∧
      (∀ c ∈ [cp, sp], c.kw "cosmology" = some (.cosmo (toAstropy cosmo)) ∧ c.kw "redshift" = some (.num z) ∧ c.kw "mdef" = some (.text mdef)) ∧
      (key = none → sp.kw "conc_mass_model" = some (.text "dutton_maccio14")) ∧ (key ≠ none → FromCatalog sp) ∧
      (∀ c ∈ [cen, cp, sat, sp], c.kw "modulate_with_cenocc" = some ((kw "modulate_with_cenocc").getD (.flag true))) ∧
      ∀ n, n ∉ ["prim_haloprop_key", "cenocc_model", "conc_mass_model", "modulate_with_cenocc", "cosmology", "redshift", "mdef"] →
        ∀ c ∈ [cen, cp, sat, sp], c.kw n = kw n := by
  simp only [List.forall_mem_cons, List.not_mem_nil, false_implies, implies_true, and_true] at hk
  obtain ⟨k1, k2, k3⟩ := hk
  unfold zheng
  simp only [callKw, List.any_cons, List.any_nil, Dict.setDefault, get_set, k1, k2, k3, Bool.or_false, Except.bind]
  simp only [String.reduceEq, if_false, k1, k2, k3, Option.isSome_none, Bool.or_false, Bool.false_eq_true]
  refine ⟨_, _, _, _, rfl, rfl, rfl, rfl, rfl, ?_, ?_, ?_, ?_, ?_, ?_, ?_⟩
  · intro c hc
    simp only [List.mem_cons, List.not_mem_nil, or_false] at hc
    rcases hc with rfl | rfl <;> simp
  · simp
  · intro c hc
    simp only [List.mem_cons, List.not_mem_nil, or_false] at hc
    rcases hc with rfl | rfl <;> simp
  · rintro rfl
    simp
  · intro hn
    cases key with
    | none => exact absurd rfl hn
    | some k => simp [FromCatalog]
  · intro c hc
    simp only [List.mem_cons, List.not_mem_nil, or_false] at hc
    rcases hc with rfl | rfl | rfl | rfl <;> simp [Dict.setDefault]
  · intro n hn c hc
    simp only [List.mem_cons, List.not_mem_nil, or_false, not_or] at hn
    obtain ⟨n1, n2, n3, n4, n5, n6, n7⟩ := hn
    simp only [List.mem_cons, List.not_mem_nil, or_false] at hc
    rcases hc with rfl | rfl | rfl | rfl <;> simp [Dict.setDefault, n1, n2, n3, n4, n5, n6, n7]

/-- Naming one of the keywords that the function itself sets is a TypeError. -/
theorem zheng_conflict (cosmo : Cosmo C) (z : ℚ) (mdef : String) (key : Option String) (kw : Dict (HV C))
    (hk : ∃ n ∈ ["prim_haloprop_key", "cenocc_model", "conc_mass_model"], kw n ≠ none) : zheng cosmo z mdef key kw = .error .typeError := by
  unfold zheng
  simp only [callKw, List.any_cons, List.any_nil, Dict.setDefault, get_set, Bool.or_false, Except.bind]
  simp only [String.reduceEq, if_false]
  obtain ⟨n, hn, h⟩ := hk
  simp only [List.mem_cons, List.not_mem_nil, or_false] at hn
  cases h1 : kw "prim_haloprop_key" with
  | some v => simp
  | none =>
    cases h2 : kw "cenocc_model" with
    | some v => simp
    | none =>
      cases h3 : kw "conc_mass_model" with
      | some v => simp
      | none => rcases hn with rfl | rfl | rfl <;> contradiction

/-- **The name of the column is not used**: any two names give the same model, so a column of another name than the default of halotools is never the one used. -/
theorem zheng_key_name (cosmo : Cosmo C) (z : ℚ) (mdef k1 k2 : String) (kw : Dict (HV C)) :
    zheng cosmo z mdef (some k1) kw = zheng cosmo z mdef (some k2) kw := rfl

/-- The models of the factory: the keywords that are handed to halotools. Those that are set here win over those given. -/
theorem prebuilt_spec (name : String) (cosmo : Cosmo C) (z : ℚ) (mdef : String) (key : Option String) (kw : Dict (HV C)) :
    ∃ d, prebuilt name cosmo z mdef key kw = .ok (.prebuilt name d) ∧ d "prim_haloprop_key" = some (.text ("halo_m" ++ mdef)) ∧
      d "cosmology" = some (.cosmo (toAstropy cosmo)) ∧ d "redshift" = some (.num z) ∧ d "mdef" = some (.text mdef) ∧
      d "modulate_with_cenocc" = some ((kw "modulate_with_cenocc").getD (.flag true)) ∧
      ∀ n, n ∉ ["prim_haloprop_key", "modulate_with_cenocc", "cosmology", "redshift", "mdef"] → d n = kw n := by
  refine ⟨_, rfl, by simp, by simp, by simp, by simp, by simp [Dict.setDefault], ?_⟩
  intro n hn
  simp only [List.mem_cons, List.not_mem_nil, or_false, not_or] at hn
  obtain ⟨n1, n2, n3, n4, n5⟩ := hn
  simp [Dict.setDefault, n1, n2, n3, n4, n5]

/-- **`concentration_key` is not used** by the models of the factory: with and without it the model is the same. -/
theorem prebuilt_key_ignored (name : String) (cosmo : Cosmo C) (z : ℚ) (mdef k : String) (kw : Dict (HV C)) :
    prebuilt name cosmo z mdef (some k) kw = prebuilt name cosmo z mdef none kw := rfl

/-- The model that `populate` uses for a class: with the cosmology, redshift and definition of the catalog. -/
theorem populate_class (h : Halo C) (z : ℚ) (mdef : String) (hf : Fresh h z mdef) (c : Cls) :
    resolve h (.cls c) = c.toHalotools (.nbodykit h.cosmo) z mdef (some "halo_nfw_conc") Dict.empty := by
  simp only [resolve, Halo.num, Halo.text, hf.hz, hf.hm, Except.bind]

/-- With the class `Zheng07Model` the halos have the columns that the model asks for: the masses in `prim_haloprop_key`, and the concentrations of the catalog. -/
theorem populate_zheng (e : Env C) (s : Source) (h : Halo C) (box : Option Val) (b : Val) (z : ℚ) (mdef : String) (P V M R K : Col) (hf : Fresh h z mdef)
    (hr : Reads e s h P V M R K) (hne : 0 < h.sizes.sum) (hb : box = some b ∨ (box = none ∧ h.attrs "BoxSize" = some b)) :
    ∃ cen cp sat sp k, h.prepare e s (.cls .zheng) box = .ok (.composite cen cp sat sp, k) ∧ IsTable h P V M R K b z mdef k ∧ FromCatalog sp ∧
      (∀ c ∈ [cen, sat], ∃ key, c.kw "prim_haloprop_key" = some (.text key) ∧ k key = some (.arr (M.ranks.map fun l => l.map fun r => r.headD 0))) ∧
      ∀ c ∈ [cp, sp], c.kw "cosmology" = some (.cosmo (.astropy h.cosmo)) ∧ c.kw "redshift" = some (.num z) ∧ c.kw "mdef" = some (.text mdef) := by
  obtain ⟨k, hk, ht⟩ := to_halotools_spec e s h box b z mdef P V M R K hf hr hne hb
  obtain ⟨cen, cp, sat, sp, h1, _, _, _, _, h6, _, h8, _, h10, _, _⟩ := zheng_spec (.nbodykit h.cosmo) z mdef (some "halo_nfw_conc") Dict.empty (by simp [Dict.empty])
  refine ⟨cen, cp, sat, sp, k, ?_, ht, h10 (by simp), fun c hc => ⟨_, h6 c hc, ht.mass⟩, h8⟩
  unfold Halo.prepare
  rw [populate_class h z mdef hf]
  simp only [Cls.toHalotools, h1, Except.bind, hk, Except.map]

/-- A halotools model is used as it is; an instance of one of the classes of nbodykit, another class or another object is a TypeError, also when the catalog is empty. -/
theorem populate_model (e : Env C) (s : Source) (h : Halo C) (box : Option Val) (c : Cls) (m : HModel C) :
    h.prepare e s (.inst c) box = .error .typeError ∧ h.prepare e s .otherClass box = .error .typeError ∧ h.prepare e s .otherObject box = .error .typeError ∧
    h.prepare e s (.halotools m) box = (h.toHalotools e s box).map fun k => (m, k) := ⟨rfl, rfl, rfl, rfl⟩

/-- The base class has no model. -/
theorem populate_base (e : Env C) (s : Source) (h : Halo C) (box : Option Val) (z : ℚ) (mdef : String) (hf : Fresh h z mdef) :
    h.prepare e s (.cls .base) box = .error .notImplemented := by
  unfold Halo.prepare
  rw [populate_class h z mdef hf]
  rfl

/-- The six columns of a selection. -/
theorem slice_six (e : Env C) (s : Source) (h : Halo C) (extra : List String) (masks : List (List Bool)) (f : String → Col)
    (hm : masks.map List.length = h.sizes) (hr : ∀ n ∈ ["Concentration", "Mass", "Position", "Radius", "Velocity", "VelocityOffset"] ++ extra, h.read e s n = .ok (f n)) :
    ∃ h', h.slice e s extra masks = .ok h' ∧ ∀ n ∈ ["Concentration", "Mass", "Position", "Radius", "Velocity", "VelocityOffset"], ∀ s' : Source, h'.read e s' n =
        .ok ⟨(f n).width, (masks.zip (f n).ranks).map fun p => ((p.1.zip p.2).filter fun q => q.1).map Prod.snd⟩ := by
  obtain ⟨h', h1, _, _, _, h5, _⟩ := slice_spec e s h extra masks f hm hr
  exact ⟨h', h1, fun n hn s' => h5 n (List.mem_append_left _ hn) s'⟩

end NBK.HaloObj
