import Verif.SpecObj.Props

/-!
# C116: the mesh of several species
-/
set_option linter.unusedSimpArgs false
namespace NBK.SpecObj
open NBK.Plain (Tok Dict put get del update get_put get_update get_none)

deriving instance DecidableEq for Except

/-- Every species of the list has the columns. -/
def HasColumns (m : Multi) (cols sp : List Tok) : Prop := ∀ s ∈ sp, ∃ c, source m s = .ok c ∧ ∀ x ∈ cols, x ∈ c.columns

theorem checkColumns_iff (m : Multi) (cols sp : List Tok) : checkColumns m cols sp = .ok () ↔ HasColumns m cols sp := by
  induction sp with
  | nil => exact ⟨(fun _ s hs => by cases hs), fun _ => rfl⟩
  | cons s sp ih =>
    rw [checkColumns]
    cases hs : source m s with
    | error e =>
      simp only [bind, Except.bind]
      refine ⟨(fun h => by cases h), fun h => ?_⟩
      obtain ⟨c, hc, _⟩ := h s (by simp)
      rw [hs] at hc
      cases hc
    | ok c =>
      simp only [bind, Except.bind]
      by_cases ha : cols.all (fun x => x ∈ c.columns) = true
      · rw [if_pos ha, ih]
        constructor
        · intro h t ht
          rcases List.mem_cons.1 ht with rfl | ht
          · exact ⟨c, hs, fun x hx => by simpa using (List.all_eq_true.1 ha) x hx⟩
          · exact h t ht
        · exact fun h t ht => h t (by simp [ht])
      · rw [if_neg ha]
        refine ⟨(fun h => by cases h), fun h => ?_⟩
        obtain ⟨c', hc, hx⟩ := h s (by simp)
        rw [hs] at hc
        cases hc
        exact absurd (List.all_eq_true.2 fun x hxx => by simpa using hx x hxx) ha

/-- The value of an option: given, or found in the meta-data. -/
def Chosen (given : Option Meta) (name : Tok) (m : Multi) (sp : List Tok) (v : Meta) : Prop :=
  match given with
  | some g => v = g
  | none => checkMeta name m.attrs sp = .ok v

/-- C116: `to_mesh` succeeds exactly if `window` is not used, every species has the four columns, box and mesh are given or found, and they
are numbers or vectors that fit. The mesh then has that box and mesh size, the flags given, no actions, and the meta-data of the
catalog with box and mesh put over them. -/
theorem toMesh_iff (ls : Lists) (m : Multi) (o : Opts) (mm : MultiMesh) :
    toMesh ls m o = .ok mm ↔ o.window = false ∧ ∃ sp b n nv bv, species ls m = .ok sp ∧
      HasColumns m [o.position, o.selection, o.weight, o.value] sp ∧ Chosen o.boxSize sBoxSize m sp b ∧ Chosen o.nmesh sNmesh m sp n ∧
      b ≠ .none ∧ n ≠ .none ∧ meshVec n = .ok nv ∧ boxVec nv.length b = .ok bv ∧
      mm = ⟨⟨0, bv, nv, o.dtype, o.interlaced, o.compensated, o.resampler, none, none, none, none,
        put sNmesh (.val (.vec (nv.map fun (k : Int) => (k : ℚ)))) (put sBoxSize (.val (.vec bv)) m.attrs), []⟩, m, o⟩ := by
  have hch : ∀ (given : Option Meta) (name : Tok) (sp : List Tok) (v : Meta),
      chosen given name m.attrs sp = .ok v ↔ Chosen given name m sp v := by
    intro given name sp v
    cases given with
    | some g => exact ⟨fun h => by cases h; rfl, fun h => by rw [show v = g from h]; rfl⟩
    | none => exact Iff.rfl
  unfold toMesh
  by_cases hw : o.window = true
  · rw [if_pos hw]
    exact ⟨(fun h => by cases h), (fun h => by rw [h.1] at hw; cases hw)⟩
  · rw [if_neg hw]
    have hw' : o.window = false := by simpa using hw
    cases hs : species ls m with
    | error e =>
      simp only [bind, Except.bind]
      exact ⟨(fun h => by cases h), (fun ⟨_, _, _, _, _, _, h, _⟩ => by cases h)⟩
    | ok sp =>
      simp only [bind, Except.bind]
      cases hc : checkColumns m [o.position, o.selection, o.weight, o.value] sp with
      | error e =>
        refine ⟨(fun h => by cases h), ?_⟩
        rintro ⟨_, sp', b, n, nv, bv, h1, h2, _⟩
        cases h1
        rw [(checkColumns_iff _ _ _).2 h2] at hc
        cases hc
      | ok u =>
        have hcol := (checkColumns_iff m _ sp).1 hc
        dsimp only
        constructor
        · intro h
          cases hb : chosen o.boxSize sBoxSize m.attrs sp with
          | error e => rw [hb] at h; cases h
          | ok b =>
            rw [hb] at h
            dsimp only at h
            cases hn : chosen o.nmesh sNmesh m.attrs sp with
            | error e => rw [hn] at h; cases h
            | ok n =>
              rw [hn] at h
              dsimp only at h
              unfold catalogMesh at h
              by_cases hnone : n = .none ∨ b = .none
              · rw [if_pos hnone] at h; cases h
              · rw [if_neg hnone] at h
                cases hv : meshVec n with
                | error e => rw [hv] at h; cases h
                | ok nv =>
                  rw [hv] at h
                  simp only [bind, Except.bind] at h
                  cases hbv : boxVec nv.length b with
                  | error e => rw [hbv] at h; cases h
                  | ok bv =>
                    rw [hbv] at h
                    simp only at h
                    cases h
                    exact ⟨hw', sp, b, n, nv, bv, rfl, hcol, (hch _ _ _ _).1 hb, (hch _ _ _ _).1 hn, fun e => hnone (.inr e),
                      fun e => hnone (.inl e), hv, hbv, rfl⟩
        · rintro ⟨_, sp', b, n, nv, bv, h1, h2, h3, h4, h5, h6, h7, h8, rfl⟩
          cases h1
          rw [(hch _ _ _ _).2 h3, (hch _ _ _ _).2 h4]
          dsimp only
          unfold catalogMesh
          rw [if_neg (by rintro (e | e); exacts [h6 e, h5 e]), h7]
          simp only [bind, Except.bind, h8]

theorem meshVec_int (nv : List Int) : meshVec (.vec (nv.map fun (k : Int) => (k : ℚ))) = .ok nv := by
  have : (fun x : ℚ => if 0 ≤ x then ⌊x⌋ else ⌈x⌉) ∘ (fun (k : Int) => (k : ℚ)) = id := by
    funext k
    simp
  rw [meshVec, List.map_map, this, List.map_id]

theorem boxVec_self (b : List ℚ) : boxVec b.length (.vec b) = .ok b := by
  rcases b with _ | ⟨x, _ | ⟨y, b⟩⟩
  · rfl
  · rfl
  · simp [boxVec]

/-- A mesh made by `to_mesh` has as many box sides as mesh sizes. -/
theorem toMesh_fits (ls : Lists) (m : Multi) (o : Opts) (mm : MultiMesh) (h : toMesh ls m o = .ok mm) :
    mm.mesh.boxSize.length = mm.mesh.nmesh.length := by
  obtain ⟨_, sp, b, n, nv, bv, _, _, _, _, _, _, _, h8, rfl⟩ := (toMesh_iff ls m o mm).1 h
  dsimp only
  unfold boxVec at h8
  split at h8
  · cases h8; simp
  · cases h8; simp
  · split at h8
    · rename_i hl; cases h8; exact hl
    · cases h8
  · cases h8
  · cases h8

/-- C116: the mesh of a species has the box, the mesh size, the data type, the flags and the actions of the whole as they are at that time, and
paints the columns named when the mesh was made, of the catalog of that species; attributes of the whole go before those of the species. -/
theorem meshItem_spec (ls : Lists) (mm : MultiMesh) (sp : List Tok) (key : Tok) (c : Cat) (hfit : mm.mesh.boxSize.length = mm.mesh.nmesh.length)
    (hs : species ls mm.cat = .ok sp) (hk : key ∈ sp) (hc : source mm.cat key = .ok c)
    (hcols : ∀ x ∈ [mm.opts.weight, mm.opts.value, mm.opts.selection, mm.opts.position], x ∈ c.columns)
    (hnd : (mm.mesh.attrs.map Prod.fst).Nodup) :
    ∃ r, meshItem ls mm key = .ok r ∧ r.src = c.id ∧ r.boxSize = mm.mesh.boxSize ∧ r.nmesh = mm.mesh.nmesh ∧ r.dtype = mm.mesh.dtype ∧
      r.interlaced = mm.mesh.interlaced ∧ r.compensated = mm.mesh.compensated ∧ r.resampler = mm.mesh.resampler ∧
      r.position = some mm.opts.position ∧ r.selection = some mm.opts.selection ∧ r.weight = some mm.opts.weight ∧
      r.value = some mm.opts.value ∧ r.actions = mm.mesh.actions ∧
      ∀ x, x ≠ sBoxSize → x ≠ sNmesh → get x r.attrs = (get x mm.mesh.attrs).or ((get x c.attrs).map Attr.val) := by
  have ha : [mm.opts.weight, mm.opts.value, mm.opts.selection, mm.opts.position].all (fun x => x ∈ c.columns) = true :=
    List.all_eq_true.2 fun x hx => by simpa using hcols x hx
  have hb := boxVec_self mm.mesh.boxSize
  rw [hfit] at hb
  refine ⟨⟨c.id, mm.mesh.boxSize, mm.mesh.nmesh, mm.mesh.dtype, mm.mesh.interlaced, mm.mesh.compensated, mm.mesh.resampler,
    some mm.opts.position, some mm.opts.selection, some mm.opts.weight, some mm.opts.value,
    update (put sNmesh (.val (.vec (mm.mesh.nmesh.map fun (k : Int) => (k : ℚ)))) (put sBoxSize (.val (.vec mm.mesh.boxSize))
      (c.attrs.map fun q => (q.1, .val q.2)))) mm.mesh.attrs, mm.mesh.actions⟩, ?_, ?_⟩
  · rw [meshItem, hs]
    simp only [bind, Except.bind, hk, if_true, hc, ha]
    rw [catalogMesh, if_neg (by rintro (e | e) <;> cases e), meshVec_int]
    simp only [bind, Except.bind, hb, current]
  · refine ⟨rfl, rfl, rfl, rfl, rfl, rfl, rfl, rfl, rfl, rfl, rfl, rfl, fun x h1 h2 => ?_⟩
    dsimp only
    rw [get_update _ _ hnd, get_put, if_neg (fun e => h2 e.symm), get_put, if_neg (fun e => h1 e.symm), get_map_val]

/-- Another key is a KeyError. -/
theorem meshItem_other (ls : Lists) (mm : MultiMesh) (sp : List Tok) (key : Tok) (hs : species ls mm.cat = .ok sp) (hk : key ∉ sp) :
    meshItem ls mm key = .error .keyError := by
  rw [meshItem, hs]
  simp only [bind, Except.bind, hk, if_false]

/-- `cat[s].attrs` replaced by another dictionary. -/
def setAttrs (m : Multi) (s : Tok) (d : Dict Meta) : Multi :=
  { m with sources := m.sources.map fun q => if q.1 = s then (q.1, { q.2 with attrs := d }) else q }

theorem source_setAttrs (m : Multi) (s : Tok) (d : Dict Meta) (t : Tok) :
    (∀ e, source m t = .error e → source (setAttrs m s d) t = .error e) ∧
    (∀ c, source m t = .ok c → ∃ c', source (setAttrs m s d) t = .ok c' ∧ c'.columns = c.columns) := by
  have key : get t (setAttrs m s d).sources = (get t m.sources).map fun c => if t = s then { c with attrs := d } else c := by
    unfold setAttrs
    dsimp only
    generalize m.sources = l
    induction l with
    | nil => rfl
    | cons q l ih =>
      rw [List.map_cons]
      by_cases h1 : q.1 = s
      · rw [if_pos h1]
        by_cases h2 : q.1 = t
        · have : t = s := h2.symm.trans h1
          simp [Plain.get, h2, this]
        · simp [Plain.get, h2, ih]
      · rw [if_neg h1]
        by_cases h2 : q.1 = t
        · have : ¬ t = s := fun e => h1 (h2.trans e)
          simp [Plain.get, h2, this]
        · simp [Plain.get, h2, ih]
  unfold source
  rw [key]
  cases get t m.sources with
  | none => exact ⟨fun e h => h, (fun c h => by cases h)⟩
  | some c0 =>
    refine ⟨(fun e h => by cases h), fun c h => ?_⟩
    cases h
    by_cases e : t = s
    · exact ⟨_, rfl, by simp [e]⟩
    · exact ⟨_, rfl, by simp [e]⟩

/-- What is changed in the meta-data of a species after the catalog was made plays no role for the mesh: the values were copied. -/
theorem later_ignored (ls : Lists) (m : Multi) (s : Tok) (d : Dict Meta) (o : Opts) :
    (toMesh ls (setAttrs m s d) o).map (fun mm => mm.mesh) = (toMesh ls m o).map (fun mm => mm.mesh) := by
  have hcc : ∀ cols sp, checkColumns (setAttrs m s d) cols sp = checkColumns m cols sp := by
    intro cols sp
    induction sp with
    | nil => rfl
    | cons t sp ih =>
      rw [checkColumns, checkColumns]
      cases ht : source m t with
      | error e => rw [(source_setAttrs m s d t).1 e ht]; rfl
      | ok c =>
        obtain ⟨c', h1, h2⟩ := (source_setAttrs m s d t).2 c ht
        rw [h1]
        simp only [bind, Except.bind, h2, ih]
  unfold toMesh
  by_cases hw : o.window = true
  · rw [if_pos hw, if_pos hw]
  · rw [if_neg hw, if_neg hw]
    have hsp : species ls (setAttrs m s d) = species ls m := rfl
    have hat : (setAttrs m s d).attrs = m.attrs := rfl
    rw [hsp]
    cases species ls m with
    | error e => rfl
    | ok sp =>
      simp only [bind, Except.bind, hcc, hat]
      cases checkColumns m [o.position, o.selection, o.weight, o.value] sp with
      | error e => rfl
      | ok u =>
        dsimp only
        cases chosen o.boxSize sBoxSize m.attrs sp with
        | error e => rfl
        | ok b =>
          dsimp only
          cases chosen o.nmesh sNmesh m.attrs sp with
          | error e => rfl
          | ok n =>
            dsimp only
            cases catalogMesh 0 m.attrs n b o none none none none <;> rfl

/-! ## Concrete catalogs -/

/-- Two catalogs in the same box; the second one has no mesh size. -/
def cat1 : Cat := ⟨1, 0, [['P'], ['S'], ['W'], ['V']], [(sBoxSize, .vec [2, 2, 2]), (sNmesh, .num 8)]⟩
def cat2 : Cat := ⟨2, 0, [['P'], ['S'], ['W'], ['V'], ['x']], [(sBoxSize, .num 2)]⟩
def lists : Lists := [[['d'], ['r']]]

/-- The case behind the theorems: the attributes, the columns, and the mesh, whose size is that of the first species. -/
theorem species_case : ∃ m mm r, multi lists 0 [cat1, cat2] [] = .ok m ∧ get ['d', '.', 'N', 'm', 'e', 's', 'h'] m.attrs = some (.val (.num 8)) ∧
    columns lists m = .ok [['d', '/', 'P'], ['d', '/', 'S'], ['d', '/', 'W'], ['d', '/', 'V'], ['r', '/', 'P'], ['r', '/', 'S'], ['r', '/', 'W'],
      ['r', '/', 'V'], ['r', '/', 'x']] ∧
    getitem lists m ['r', '/', 'x'] = .ok (.column cat2 ['x']) ∧
    toMesh lists m { interlaced := true } = .ok mm ∧ mm.mesh.boxSize = [2, 2, 2] ∧ mm.mesh.nmesh = [8, 8, 8] ∧
    meshItem lists mm ['r'] = .ok r ∧ r.src = 2 ∧ r.interlaced = true ∧ r.nmesh = [8, 8, 8] := by
  refine ⟨_, _, _, rfl, ?_, ?_, ?_, rfl, ?_, ?_, rfl, ?_, ?_, ?_⟩ <;> decide +kernel

/-- Boxes that differ, and no box at all. -/
theorem box_errors :
    (multi lists 0 [cat1, { cat2 with attrs := [(sBoxSize, .num 3)] }] []).bind (toMesh lists · {}) = .error .valueError ∧
    (multi lists 0 [{ cat1 with attrs := [] }, { cat2 with attrs := [] }] []).bind (toMesh lists · {}) = .error .valueError ∧
    (multi lists 0 [cat1, { cat2 with columns := [['P']] }] []).bind (toMesh lists · {}) = .error .valueError ∧
    (multi lists 0 [cat1, cat2] []).bind (toMesh lists · { window := true }) = .error .runtimeError := by
  refine ⟨?_, ?_, ?_, ?_⟩ <;> decide +kernel

/-- Negation: the list of names is kept by reference, so that a name the caller appends later is a species without a catalog. -/
theorem names_shared : ∃ m, multi lists 0 [cat1, cat2] [] = .ok m ∧ (∃ l, columns lists m = .ok l) ∧
    columns [[['d'], ['r'], ['z']]] m = .error .keyError ∧ toMesh [[['d'], ['r'], ['z']]] m {} = .error .keyError := by
  refine ⟨_, rfl, ⟨_, rfl⟩, ?_, ?_⟩ <;> decide +kernel

/-- Negation: a keyword `species` replaces the list of names. -/
theorem species_keyword : ∃ m, multi lists 0 [cat1, cat2] [(sSpecies, .val (.num 1))] = .ok m ∧ species lists m = .error .typeError ∧
    columns lists m = .error .typeError := by
  refine ⟨_, rfl, ?_, ?_⟩ <;> decide +kernel

/-- Negation: with dots in names an attribute of one species stands for one of another: the species `a.b` has no mesh size, but `a` has an
attribute `b.Nmesh`. -/
theorem dotted_names : ∃ m, multi [[['a'], ['a', '.', 'b']]] 0
      [{ cat1 with attrs := [(sBoxSize, .num 2), (['b', '.', 'N', 'm', 'e', 's', 'h'], .num 5)] }, cat2] [] = .ok m ∧
    get ['N', 'm', 'e', 's', 'h'] cat2.attrs = none ∧ get ['a', '.', 'b', '.', 'N', 'm', 'e', 's', 'h'] m.attrs = some (.val (.num 5)) ∧
    (toMesh [[['a'], ['a', '.', 'b']]] m {}).map (fun mm => mm.mesh.nmesh) = .ok [5, 5, 5] := by
  refine ⟨_, rfl, ?_, ?_, ?_⟩ <;> decide +kernel

/-- Negation: with a slash in the name of a species its columns are listed but cannot be had. -/
theorem slash_name : ∃ m l, multi [[['a', '/', 'b']]] 0 [cat2] [] = .ok m ∧ columns [[['a', '/', 'b']]] m = .ok l ∧
    ['a', '/', 'b', '/', 'x'] ∈ l ∧ getitem [[['a', '/', 'b']]] m ['a', '/', 'b', '/', 'x'] = .error .valueError := by
  refine ⟨_, _, rfl, rfl, ?_, ?_⟩ <;> decide +kernel

/-- Negation: the box in the catalog of a species can be changed without effect on the mesh, and a box that only one species has counts for
all. -/
theorem stale_box : ∃ m, multi lists 0 [cat1, { cat2 with attrs := [] }] [] = .ok m ∧
    (toMesh lists m {}).map (fun mm => mm.mesh.boxSize) = .ok [2, 2, 2] ∧
    (toMesh lists (setAttrs m ['d'] [(sBoxSize, .num 9)]) {}).map (fun mm => mm.mesh.boxSize) = .ok [2, 2, 2] := by
  refine ⟨_, rfl, ?_, ?_⟩ <;> decide +kernel

end NBK.SpecObj
