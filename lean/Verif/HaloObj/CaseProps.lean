import Verif.HaloObj.TableProps

/-!
# C120: the demo catalog, cases, and what fails
-/
set_option linter.unusedSimpArgs false
namespace NBK.HaloObj

variable {C : Type}

/-! ## `DemoHaloCatalog` -/

/-- The file is that of the cache; else it is downloaded, and the error of the download is raised on all ranks. -/
theorem locate_spec (cached again : Except Err Cached) (download : Except Err Unit) :
    (∀ f, cached = .ok f → locate cached download again = .ok f) ∧
    (∀ x y, cached = .error x → download = .error y → locate cached download again = .error y) ∧
    (∀ x, cached = .error x → download = .ok () → locate cached download again = again) := by
  refine ⟨?_, ?_, ?_⟩
  · rintro f rfl; rfl
  · rintro x y rfl rfl; rfl
  · rintro x rfl rfl; rfl

/-- **The demo catalog**: masses, positions and velocities of the file, the redshift, box and particle mass of its metadata; it becomes a halotools table without being told
the box. -/
theorem demo_spec (e : Env C) (cosmo : C) (f : Cached) (X Y Z U V W M : Col) (hx : f.file.read "halo_x" = .ok X) (hy : f.file.read "halo_y" = .ok Y)
    (hz : f.file.read "halo_z" = .ok Z) (hu : f.file.read "halo_vx" = .ok U) (hv : f.file.read "halo_vy" = .ok V) (hw : f.file.read "halo_vz" = .ok W)
    (hm : f.file.cols "halo_mvir" = some M) (hne : 0 < f.file.sizes.sum) :
    ∃ s h k, demo e cosmo (.ok f) = .ok (s, h) ∧ Fresh h f.redshift "vir" ∧ h.attrs "BoxSize" = some f.lbox ∧ h.attrs "particle_mass" = some (.num f.particleMass) ∧
      h.attrs "cosmo" = some (.pars (e.pars cosmo)) ∧ h.cosmo = cosmo ∧ h.sizes = f.file.sizes ∧
      h.read e s "Mass" = .ok M ∧ h.read e s "Position" = .ok (stack X Y Z) ∧ h.read e s "Velocity" = .ok (stack U V W) ∧
      h.toHalotools e s none = .ok k ∧ k "Lbox" = some (.val f.lbox) ∧ k "particle_mass" = some (.val (.num f.particleMass)) ∧
      k "halo_mvir" = some (.arr (M.ranks.map fun l => l.map fun r => r.headD 0)) := by
  let s : Source := ⟨(f.file.cols.set "Position" (stack X Y Z)).set "Velocity" (stack U V W), f.file.attrs, f.file.sizes⟩
  have hacc : Accepts (.cat s) (some "halo_mvir") (some "Position") (some "Velocity") := by
    refine ⟨s, _, _, _, rfl, rfl, rfl, rfl, ?_⟩
    intro n hn
    simp only [List.mem_cons, List.not_mem_nil, or_false] at hn
    left
    rcases hn with rfl | rfl | rfl <;> simp [s, hm]
  obtain ⟨h0, hn⟩ := (new_ok_iff e (.cat s) cosmo f.redshift "vir" _ _ _).2 hacc
  obtain ⟨n1, n2, n3, n4, n5, n6, n7, n8, n9, n10, n11, n12⟩ := new_spec e s cosmo f.redshift "vir" _ _ _ h0 hn
  let h : Halo C := ⟨h0.cosmo, (((h0.attrs.set "BoxSize" f.lbox).set "redshift" (.num f.redshift)).set "particle_mass" (.num f.particleMass)).set
      "cosmo" (.pars (e.pars cosmo)), h0.sizes, h0.overrides⟩
  have hd : demo e cosmo (.ok f) = .ok (s, h) := by
    unfold demo
    simp only [Except.bind, hx, hy, hz, hu, hv, hw]
    rw [hn]
    rfl
  have hf : Fresh h f.redshift "vir" := by
    constructor
    · simp [h]
    · simp [h, n9]
    · simp [h, n10]
    · simp [h, n11]
  have rM : h.read e s "Mass" = .ok M := by
    simp [Halo.read, Halo.base, h, n3, Halo.text, n6, Except.bind, Source.read, s, hm]
  have rP : h.read e s "Position" = .ok (stack X Y Z) := by
    simp [Halo.read, Halo.base, h, n3, Halo.text, n7, Except.bind, Source.read, s]
  have rV : h.read e s "Velocity" = .ok (stack U V W) := by
    simp [Halo.read, Halo.base, h, n3, Halo.text, n8, Except.bind, Source.read, s]
  obtain ⟨_, d2, d3⟩ := derived_spec e s h f.redshift "vir" hf.hz hf.hm
  have rC := d2 (n3 _) M rM
  have rR := d3 (n3 _) M rM
  have hsz : h.sizes = f.file.sizes := n2
  obtain ⟨k, hk, ht⟩ := to_halotools_spec e s h none f.lbox f.redshift "vir" _ _ _ _ _ hf ⟨rP, rV, rM, rR, rC, rfl, rfl⟩ (by rw [hsz]; exact hne)
    (Or.inr ⟨rfl, by simp [h]⟩)
  have hp : h.attrs "particle_mass" = some (.num f.particleMass) := by simp [h]
  refine ⟨s, h, k, hd, hf, by simp [h], hp, by simp [h], n1, hsz, rM, rP, rV, hk, ht.box, ?_, ht.mass⟩
  rw [ht.particle, hp]
  rfl

/-! ## A case -/

/-- Two ranks with two and one halo; `E(z) = 1 + z`, concentration and radius linear in the mass. -/
def exEnv : Env Unit := ⟨fun _ => [("h", 7 / 10)], fun _ z => 1 + z, fun _ _ z m => m / (1 + z), fun _ _ _ m => 2 * m, id⟩

def exSource : Source :=
  ⟨((Dict.empty.set "M" ⟨none, [[[10], [20]], [[30]]]⟩).set "Pos" ⟨some 3, [[[1, 2, 3], [4, 5, 6]], [[7, 8, 9]]]⟩).set "Vel"
    ⟨some 3, [[[100, 0, 0], [0, 200, 0]], [[0, 0, 300]]]⟩, Dict.empty.set "BoxSize" (.num 50), [2, 1]⟩

def exHalo : Halo Unit := ⟨(), attrsOf exEnv exSource.attrs () 1 "vir" "M" "Pos" "Vel", [2, 1], Dict.empty⟩

theorem ex_new : new exEnv (.cat exSource) () 1 "vir" (some "M") (some "Pos") (some "Vel") = .ok exHalo := by
  simp [new, checkColumns, Arg.contains, exSource, exHalo]

/-- The columns of the case, and its table. -/
theorem halo_case :
    exHalo.read exEnv exSource "Mass" = .ok ⟨none, [[[10], [20]], [[30]]]⟩ ∧
    exHalo.read exEnv exSource "VelocityOffset" = .ok ⟨some 3, [[[1, 0, 0], [0, 2, 0]], [[0, 0, 3]]]⟩ ∧
    exHalo.read exEnv exSource "Concentration" = .ok ⟨none, [[[5], [10]], [[15]]]⟩ ∧
    exHalo.read exEnv exSource "Radius" = .ok ⟨none, [[[20], [40]], [[60]]]⟩ := by
  refine ⟨?_, ?_, ?_, ?_⟩ <;> decide +kernel

/-- The arrays of a table. -/
def arrOf {C : Type} (k : Except Err (Dict (KW C))) (n : String) : Option (List (List ℚ)) :=
  match k with
  | .error _ => none
  | .ok d =>
    match d n with
    | some (.arr l) => some l
    | _ => none

theorem table_case :
    arrOf (exHalo.toHalotools exEnv exSource none) "halo_y" = some [[2, 5], [8]] ∧ arrOf (exHalo.toHalotools exEnv exSource none) "halo_vz" = some [[0, 0], [300]] ∧
    arrOf (exHalo.toHalotools exEnv exSource none) "halo_mvir" = some [[10, 20], [30]] ∧ arrOf (exHalo.toHalotools exEnv exSource none) "halo_id" = some [[0, 1], [2]] ∧
    arrOf (exHalo.toHalotools exEnv exSource none) "halo_local_id" = some [[0, 1], [0]] ∧ arrOf (exHalo.toHalotools exEnv exSource none) "halo_upid" = some [[-1, -1], [-1]] := by
  refine ⟨?_, ?_, ?_, ?_, ?_, ?_⟩ <;> decide +kernel

/-- The masses of the catalog follow the source until they are set, and radii follow the masses. -/
theorem live_case :
    let v : Col := ⟨none, [[[1], [2]], [[3]]]⟩
    let w : Col := ⟨none, [[[7], [8]], [[9]]]⟩
    let st := run (exSource, exHalo) [.setSource "M" v]
    let st' := run (exSource, exHalo) [.setSource "M" v, .setHalo "Mass" w, .setSource "M" v]
    st.2.read exEnv st.1 "Mass" = .ok v ∧ st.2.read exEnv st.1 "Radius" = .ok ⟨none, [[[2], [4]], [[6]]]⟩ ∧ st'.2.read exEnv st'.1 "Mass" = .ok w ∧
    st'.2.read exEnv st'.1 "Radius" = .ok ⟨none, [[[14], [16]], [[18]]]⟩ := by
  refine ⟨?_, ?_, ?_, ?_⟩ <;> decide +kernel

/-- `exHalo` meets the hypotheses of the theorems about the table. -/
theorem ex_reads : ∃ P V M R K, Reads exEnv exSource exHalo P V M R K ∧ Fresh exHalo 1 "vir" :=
  ⟨⟨some 3, [[[1, 2, 3], [4, 5, 6]], [[7, 8, 9]]]⟩, ⟨some 3, [[[100, 0, 0], [0, 200, 0]], [[0, 0, 300]]]⟩, ⟨none, [[[10], [20]], [[30]]]⟩,
    ⟨none, [[[20], [40]], [[60]]]⟩, ⟨none, [[[5], [10]], [[15]]]⟩,
    ⟨by decide +kernel, by decide +kernel, by decide +kernel, by decide +kernel, by decide +kernel, rfl, rfl⟩,
    ⟨by decide +kernel, by decide +kernel, by decide +kernel, by decide +kernel⟩⟩

def isOk {α : Type} : Except Err α → Bool
  | .ok _ => true
  | .error _ => false

/-- What a column of the subset is. -/
def sliceRead (masks : List (List Bool)) (ops : List Op) (n : String) : Except Err Col :=
  (exHalo.slice exEnv exSource [] masks).bind fun h => (run (exSource, h) ops).2.read exEnv (run (exSource, h) ops).1 n

/-- A subset: one halo of each rank. Its radii do not follow masses that are set on the subset, although those of the catalog do. -/
theorem slice_case :
    let v : Col := ⟨none, [[[1]], [[3]]]⟩
    sliceRead [[false, true], [true]] [] "Mass" = .ok ⟨none, [[[20]], [[30]]]⟩ ∧ sliceRead [[false, true], [true]] [] "Radius" = .ok ⟨none, [[[40]], [[60]]]⟩ ∧
    sliceRead [[false, true], [true]] [.setHalo "Mass" v] "Mass" = .ok v ∧
    sliceRead [[false, true], [true]] [.setHalo "Mass" v] "Radius" = .ok ⟨none, [[[40]], [[60]]]⟩ := by
  refine ⟨?_, ?_, ?_, ?_⟩ <;> decide +kernel

/-- The primary property of the centrals of a model. -/
def primKey {C : Type} : Except Err (HModel C × Dict (KW C)) → Option (HV C)
  | .ok (.composite cen _ _ _, _) => cen.kw "prim_haloprop_key"
  | _ => none

def tableOf {C : Type} : Except Err (HModel C × Dict (KW C)) → Except Err (Dict (KW C))
  | .ok p => .ok p.2
  | .error x => .error x

/-- **The definition of the mass in `attrs` cannot be changed**: the model then asks for a column that the table does not have, because the names of the columns are those of
the definition given to the constructor. -/
theorem mdef_stale :
    let st := run (exSource, exHalo) [.setAttr "mdef" (.text "200m")]
    primKey (st.2.prepare exEnv st.1 (.cls .zheng) none) = some (.text "halo_m200m") ∧
    arrOf (tableOf (st.2.prepare exEnv st.1 (.cls .zheng) none)) "halo_m200m" = none ∧
    arrOf (tableOf (st.2.prepare exEnv st.1 (.cls .zheng) none)) "halo_mvir" = some [[10, 20], [30]] := by
  refine ⟨?_, ?_, ?_⟩ <;> decide +kernel

/-- A dictionary without the columns is refused as if it were a catalog without them. -/
theorem no_catalog_case : new exEnv (.container ["Mass"]) () 1 "vir" (some "Mass") (some "Position") (some "Velocity") = .error .valueError ∧
    new exEnv (.container ["Mass", "Position", "Velocity"]) () 1 "vir" (some "Mass") (some "Position") (some "Velocity") = .error .typeError := by
  constructor <;> rw [no_catalog] <;> simp

/-- The two kinds of models differ in what a keyword of the caller may do. -/
theorem keyword_case (c : Cosmo Unit) (z : ℚ) :
    let kw : Dict (HV Unit) := Dict.empty.set "prim_haloprop_key" (.text "halo_m500c")
    zheng c z "vir" none kw = .error .typeError ∧ ∃ d, prebuilt "hearin15" c z "vir" none kw = .ok (.prebuilt "hearin15" d) ∧
      d "prim_haloprop_key" = some (.text "halo_mvir") := by
  refine ⟨zheng_conflict c z "vir" none _ ⟨"prim_haloprop_key", by simp, by simp⟩, ?_⟩
  obtain ⟨d, h1, h2, _⟩ := prebuilt_spec "hearin15" c z "vir" none (Dict.empty.set "prim_haloprop_key" (.text "halo_m500c"))
  exact ⟨d, h1, h2⟩

/-- A demo catalog from a file of one rank. -/
theorem demo_case :
    let col : Col := ⟨none, [[[1], [2]]]⟩
    let file : Source := ⟨fun n => if n ∈ ["halo_x", "halo_y", "halo_z", "halo_vx", "halo_vy", "halo_vz", "halo_mvir"] then some col else none, Dict.empty, [2]⟩
    ∃ s h k, demo exEnv () (locate (.error .other) (.ok ()) (.ok ⟨file, .num 250, 1 / 2, 10⟩)) = .ok (s, h) ∧ h.read exEnv s "Mass" = .ok col ∧
      h.toHalotools exEnv s none = .ok k ∧ k "Lbox" = some (.val (.num 250)) := by
  intro col file
  have hl : locate (.error .other) (.ok ()) (.ok ⟨file, .num 250, 1 / 2, 10⟩) = .ok ⟨file, .num 250, 1 / 2, 10⟩ := rfl
  obtain ⟨s, h, k, h1, _, _, _, _, _, _, h8, _, _, h11, h12, _, _⟩ := demo_spec exEnv () ⟨file, .num 250, 1 / 2, 10⟩ col col col col col col col rfl rfl rfl rfl rfl rfl rfl (by decide)
  exact ⟨s, h, k, by rw [hl]; exact h1, h8, h11, h12⟩

/-- A row of the stacked column holds the three values of that row, in order. -/
theorem stack_rows (a b c : Col) (r j : Nat) (A B C : List (List ℚ)) (x y z : ℚ) (ha : a.ranks[r]? = some A) (hb : b.ranks[r]? = some B) (hc : c.ranks[r]? = some C)
    (hx : A[j]? = some [x]) (hy : B[j]? = some [y]) (hz : C[j]? = some [z]) : ∃ L, (stack a b c).ranks[r]? = some L ∧ L[j]? = some [x, y, z] := by
  refine ⟨(A.zip (B.zip C)).map fun q => [q.1.headD 0, q.2.1.headD 0, q.2.2.headD 0], ?_, ?_⟩
  · unfold stack
    simp [List.getElem?_map, List.getElem?_zip_eq_some, ha, hb, hc, List.zip, List.getElem?_zipWith]
  · simp [List.getElem?_map, hx, hy, hz, List.zip, List.getElem?_zipWith]

end NBK.HaloObj
