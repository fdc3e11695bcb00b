import Verif.HaloObj.Model
import Mathlib.Tactic.Ring
import Mathlib.Data.List.Basic
import Mathlib.Tactic.NormNum

/-!
# C120: the columns of a `HaloCatalog`
-/
set_option linter.unusedSimpArgs false
namespace NBK.HaloObj

variable {C : Type}

@[simp] theorem get_set {α : Type} (d : Dict α) (k : String) (v : α) (x : String) : (d.set k v) x = if x = k then some v else d x := rfl

/-! ## The constructor -/

/-- The catalogs and columns that are accepted: the source is a catalog that has the three columns. -/
def Accepts (source : Arg) (mass position velocity : Option String) : Prop :=
  ∃ s a b c, source = .cat s ∧ mass = some a ∧ position = some b ∧ velocity = some c ∧
    ∀ n ∈ [a, b, c], (s.cols n).isSome = true ∨ n ∈ ["Selection", "Weight", "Value"]

/-- A halo catalog is made exactly from a catalog that has the three columns. -/
theorem new_ok_iff (e : Env C) (source : Arg) (cosmo : C) (z : ℚ) (mdef : String) (mass position velocity : Option String) :
    (∃ h, new e source cosmo z mdef mass position velocity = .ok h) ↔ Accepts source mass position velocity := by
  constructor
  · rintro ⟨h, hh⟩
    unfold new at hh
    cases hc : checkColumns source.contains [mass, position, velocity] with
    | some x => rw [hc] at hh; cases hh
    | none =>
      rw [hc] at hh
      cases source with
      | container l => cases hh
      | silent => cases hh
      | cat s =>
        cases mass with
        | none => simp [checkColumns] at hc
        | some a =>
          cases position with
          | none =>
            cases hb : Arg.contains (.cat s) a with
            | none => simp [checkColumns, hb] at hc
            | some t => cases t <;> simp [checkColumns, hb] at hc
          | some b =>
            cases velocity with
            | none =>
              cases ha : Arg.contains (.cat s) a with
              | none => simp [checkColumns, ha] at hc
              | some t =>
                cases hb : Arg.contains (.cat s) b with
                | none => cases t <;> simp [checkColumns, ha, hb] at hc
                | some u => cases t <;> cases u <;> simp [checkColumns, ha, hb] at hc
            | some c =>
              refine ⟨s, a, b, c, rfl, rfl, rfl, rfl, ?_⟩
              have key : ∀ n, Arg.contains (.cat s) n = some true → (s.cols n).isSome = true ∨ n ∈ ["Selection", "Weight", "Value"] := by
                intro n hn
                simpa [Arg.contains] using hn
              have go : ∀ n, ∃ t, Arg.contains (.cat s) n = some t := fun n => ⟨_, rfl⟩
              obtain ⟨ta, ha⟩ := go a
              obtain ⟨tb, hb⟩ := go b
              obtain ⟨tc, hcc⟩ := go c
              cases ta <;> cases tb <;> cases tc <;> simp [checkColumns, ha, hb, hcc] at hc
              intro n hn
              rcases List.mem_cons.1 hn with rfl | hn
              · exact key _ ha
              rcases List.mem_cons.1 hn with rfl | hn
              · exact key _ hb
              rcases List.mem_cons.1 hn with rfl | hn
              · exact key _ hcc
              · cases hn
  · rintro ⟨s, a, b, c, rfl, rfl, rfl, rfl, hk⟩
    have key : ∀ n ∈ [a, b, c], Arg.contains (.cat s) n = some true := by
      intro n hn
      have := hk n hn
      simpa [Arg.contains] using this
    refine ⟨⟨cosmo, attrsOf e s.attrs cosmo z mdef a b c, s.sizes, Dict.empty⟩, ?_⟩
    unfold new
    simp only [checkColumns, key a (by simp), key b (by simp), key c (by simp)]
    rfl

/-- What the new catalog holds: the arguments, the sizes of the source, and every other attribute of the source. -/
theorem new_spec (e : Env C) (s : Source) (cosmo : C) (z : ℚ) (mdef a b c : String) (h : Halo C)
    (hh : new e (.cat s) cosmo z mdef (some a) (some b) (some c) = .ok h) :
    h.cosmo = cosmo ∧ h.sizes = s.sizes ∧ (∀ n, h.overrides n = none) ∧ h.attrs "redshift" = some (.num z) ∧ h.attrs "cosmo" = some (.pars (e.pars cosmo)) ∧
    h.attrs "mass" = some (.text a) ∧ h.attrs "position" = some (.text b) ∧ h.attrs "velocity" = some (.text c) ∧ h.attrs "mdef" = some (.text mdef) ∧
    h.attrs "halo_mass_key" = some (.text ("halo_m" ++ mdef)) ∧ h.attrs "halo_radius_key" = some (.text ("halo_r" ++ mdef)) ∧
    ∀ k, k ∉ ["redshift", "cosmo", "mass", "position", "velocity", "mdef", "halo_mass_key", "halo_radius_key"] → h.attrs k = s.attrs k := by
  unfold new at hh
  cases hc : checkColumns (Arg.cat s).contains [some a, some b, some c] with
  | some x => rw [hc] at hh; cases hh
  | none =>
    rw [hc] at hh
    injection hh with hh
    subst hh
    refine ⟨rfl, rfl, fun _ => rfl, ?_, ?_, ?_, ?_, ?_, ?_, ?_, ?_, ?_⟩
    · simp [attrsOf]
    · simp [attrsOf]
    · simp [attrsOf]
    · simp [attrsOf]
    · simp [attrsOf]
    · simp [attrsOf]
    · simp [attrsOf]
    · simp [attrsOf]
    · intro k hk
      simp only [List.mem_cons, List.not_mem_nil, or_false, not_or] at hk
      obtain ⟨h1, h2, h3, h4, h5, h6, h7, h8⟩ := hk
      simp [attrsOf, h1, h2, h3, h4, h5, h6, h7, h8, Dict.merge, Dict.empty]

/-- A column that is `None` or missing is a ValueError, whatever the source is as long as it answers `in`. -/
theorem missing_column (e : Env C) (source : Arg) (cosmo : C) (z : ℚ) (mdef : String) (mass position velocity : Option String)
    (hs : source ≠ .silent) (hm : ∃ n ∈ [mass, position, velocity], n = none ∨ ∃ c, n = some c ∧ source.contains c = some false) :
    new e source cosmo z mdef mass position velocity = .error .valueError := by
  have go : ∀ n, ∃ t, source.contains n = some t := by
    intro n
    cases source with
    | silent => exact absurd rfl hs
    | cat s => exact ⟨_, rfl⟩
    | container l => exact ⟨_, rfl⟩
  have key : ∀ l : List (Option String), (∃ n ∈ l, n = none ∨ ∃ c, n = some c ∧ source.contains c = some false) →
      checkColumns source.contains l = some .valueError := by
    intro l
    induction l with
    | nil => rintro ⟨n, hn, _⟩; cases hn
    | cons x l ih =>
      rintro ⟨n, hn, h⟩
      cases x with
      | none => rfl
      | some c =>
        obtain ⟨t, ht⟩ := go c
        cases t with
        | false => simp [checkColumns, ht]
        | true =>
          simp only [checkColumns, ht]
          refine ih ⟨n, ?_, h⟩
          rcases List.mem_cons.1 hn with rfl | hn
          · rcases h with h | ⟨d, h, hd⟩
            · cases h
            · injection h with h
              subst h
              rw [ht] at hd
              cases hd
          · exact hn
  unfold new
  rw [key _ hm]

/-- Something that is no catalog is refused with a TypeError only if it seems to have the columns. -/
theorem no_catalog (e : Env C) (names : List String) (cosmo : C) (z : ℚ) (mdef a b c : String) :
    new e (.container names) cosmo z mdef (some a) (some b) (some c) =
      .error (if a ∈ names ∧ b ∈ names ∧ c ∈ names then .typeError else .valueError) := by
  unfold new
  by_cases ha : a ∈ names <;> by_cases hb : b ∈ names <;> by_cases hc : c ∈ names <;> simp [checkColumns, Arg.contains, ha, hb, hc]

/-! ## The formulas (transform.py) -/

/-- Masses with one redshift: each value is that of the mass at that redshift. -/
theorem formulas_scalar (e : Env C) (c : C) (mdef : String) (l : List ℚ) (z : ℚ) :
    haloConcentration e c mdef (.list l) (.scalar z) = .ok (l.map fun m => e.conc c mdef z m) ∧
    haloRadius e c mdef (.list l) (.scalar z) = .ok (l.map fun m => e.radius c mdef z m) ∧
    haloVelocityDispersion e c mdef (.list l) (.scalar z) = .ok (l.map fun m => 1100 * e.root (e.efunc c z * m / 10 ^ 15)) := by
  refine ⟨?_, ?_, ?_⟩
  · simp [haloConcentration, broadcast, Except.map]
  · simp [haloRadius, broadcast, Except.map]
  · simp only [haloVelocityDispersion, broadcast, Except.map, List.map_map]
    norm_num [Function.comp_def]

/-- Masses and redshifts of the same length: each mass goes with its redshift. -/
theorem formulas_pointwise (e : Env C) (c : C) (mdef : String) (l zs : List ℚ) (h : l.length = zs.length) (i : Nat) (hi : i < l.length) :
    (∃ r, haloConcentration e c mdef (.list l) (.list zs) = .ok r ∧ r.length = l.length ∧ r[i]? = some (e.conc c mdef (zs[i]'(h ▸ hi)) l[i])) ∧
    (∃ r, haloRadius e c mdef (.list l) (.list zs) = .ok r ∧ r.length = l.length ∧ r[i]? = some (e.radius c mdef (zs[i]'(h ▸ hi)) l[i])) ∧
    (∃ r, haloVelocityDispersion e c mdef (.list l) (.list zs) = .ok r ∧ r.length = l.length ∧
      r[i]? = some (1100 * e.root (e.efunc c (zs[i]'(h ▸ hi)) * l[i] / 10 ^ 15))) := by
  have hi' : i < zs.length := h ▸ hi
  refine ⟨⟨_, by simp only [haloConcentration, broadcast, if_pos h, Except.map]; rfl, ?_, ?_⟩, ⟨_, by simp only [haloRadius, broadcast, if_pos h, Except.map]; rfl, ?_, ?_⟩,
    ⟨_, by simp only [haloVelocityDispersion, broadcast, if_pos h, Except.map]; rfl, ?_, ?_⟩⟩
  · simp [h]
  · simp [List.getElem?_map, List.getElem?_zip_eq_some, hi, hi']
  · simp [h]
  · simp [List.getElem?_map, List.getElem?_zip_eq_some, hi, hi']
  · simp [h]
  · rw [List.getElem?_map, List.getElem?_eq_getElem (by simp [hi, hi'])]
    norm_num [List.getElem_zip]

/-- Lengths that do not fit are refused. -/
theorem formulas_refuse (e : Env C) (c : C) (mdef : String) (l zs : List ℚ) (h : l.length ≠ zs.length) (hl : l.length ≠ 1) (hz : zs.length ≠ 1) :
    haloConcentration e c mdef (.list l) (.list zs) = .error .valueError ∧ haloRadius e c mdef (.list l) (.list zs) = .error .valueError ∧
    haloVelocityDispersion e c mdef (.list l) (.list zs) = .error .valueError := by
  refine ⟨?_, ?_, ?_⟩ <;> simp [haloConcentration, haloRadius, haloVelocityDispersion, broadcast, h, hl, hz, Except.map]

/-- One mass with several redshifts. -/
theorem formulas_one_mass (e : Env C) (c : C) (mdef : String) (m : ℚ) (zs : List ℚ) :
    haloConcentration e c mdef (.scalar m) (.list zs) = .ok (zs.map fun z => e.conc c mdef z m) ∧
    haloRadius e c mdef (.list [m]) (.list zs) = .ok (zs.map fun z => e.radius c mdef z m) := by
  refine ⟨by simp [haloConcentration, broadcast, Except.map], ?_⟩
  by_cases h : zs.length = 1
  · obtain ⟨z, rfl⟩ := List.length_eq_one_iff.1 h
    simp [haloRadius, broadcast, Except.map]
  · have h' : ¬ (1 = zs.length) := fun x => h x.symm
    simp [haloRadius, broadcast, Except.map, h, h']

/-- The velocity dispersion does not depend on the definition of the mass. -/
theorem dispersion_mdef (e : Env C) (c : C) (m1 m2 : String) (mass z : Arr) :
    haloVelocityDispersion e c m1 mass z = haloVelocityDispersion e c m2 mass z := rfl

/-! ## Columns after any changes -/

/-- The value that the operations give to a column of the halo catalog that is one of those of the class. -/
def haloSet (sizes : List Nat) (n : String) : Op → Option Col
  | .setHalo m v => if m = n ∧ v.ranks.map List.length = sizes then some v else none
  | _ => none

/-- The value, or the removal, that the operations give to a column of the source. -/
def sourceSet (sizes : List Nat) (n : String) : Op → Option (Option Col)
  | .setSource m v => if m = n ∧ v.ranks.map List.length = sizes then some (some v) else none
  | .delSource m => if m = n then some none else none
  | _ => none

def attrSet (k : String) : Op → Option Val
  | .setAttr m v => if m = k then some v else none
  | _ => none

theorem step_sizes (st : Source × Halo C) (o : Op) : (step st o).1.1.sizes = st.1.sizes ∧ (step st o).1.2.sizes = st.2.sizes ∧
    (step st o).1.2.cosmo = st.2.cosmo := by
  cases o <;> simp only [step] <;> (try split) <;> (try split) <;> simp

theorem step_over (st : Source × Halo C) (o : Op) (n : String) (hn : n ∈ hardNames) :
    (step st o).1.2.overrides n = (haloSet st.2.sizes n o).or (st.2.overrides n) := by
  cases o with
  | setSource m v => simp only [step, haloSet]; split <;> simp
  | delSource m => simp only [step, haloSet]; split <;> simp
  | setAttr k v => simp [step, haloSet]
  | setHalo m v =>
    simp only [step, haloSet, Col.fits]
    by_cases h : v.ranks.map List.length = st.2.sizes
    · by_cases hm : m = n
      · subst hm; simp [h]
      · have : ¬ n = m := fun x => hm x.symm
        simp [h, hm, this]
    · simp [h]
  | delHalo m =>
    simp only [step, haloSet]
    split
    · simp
    · rename_i hm
      have : ¬ n = m := fun x => hm (x ▸ hn)
      split <;> simp [Dict.del, this]

theorem step_source (st : Source × Halo C) (o : Op) (n : String) :
    (step st o).1.1.cols n = (sourceSet st.1.sizes n o).getD (st.1.cols n) := by
  cases o with
  | setHalo m v => simp only [step, sourceSet]; split <;> simp
  | delHalo m => simp only [step, sourceSet]; split <;> (try split) <;> simp
  | setAttr k v => simp [step, sourceSet]
  | setSource m v =>
    simp only [step, sourceSet, Col.fits]
    by_cases h : v.ranks.map List.length = st.1.sizes
    · by_cases hm : m = n
      · subst hm; simp [h]
      · have : ¬ n = m := fun x => hm x.symm
        simp [h, hm, this]
    · simp [h]
  | delSource m =>
    simp only [step, sourceSet]
    by_cases hm : m = n
    · subst hm
      by_cases h : (st.1.cols m).isSome = true
      · simp [h, Dict.del]
      · have h' : st.1.cols m = none := by simpa using h
        simp [h']
    · have : ¬ n = m := fun x => hm x.symm
      split <;> simp [hm, this, Dict.del]

theorem step_attr (st : Source × Halo C) (o : Op) (k : String) :
    (step st o).1.2.attrs k = (attrSet k o).or (st.2.attrs k) := by
  cases o with
  | setHalo m v => simp only [step, attrSet]; split <;> simp
  | delHalo m => simp only [step, attrSet]; split <;> (try split) <;> simp
  | setSource m v => simp only [step, attrSet]; split <;> simp
  | delSource m => simp only [step, attrSet]; split <;> simp
  | setAttr m v =>
    simp only [step, attrSet]
    by_cases hm : m = k
    · subst hm; simp
    · have : ¬ k = m := fun x => hm x.symm
      simp [hm, this]

/-- After any operations: a column of the class has the last value of fitting length given to it, a column of the source the last value or removal, an attribute the
last value; the sizes and the cosmology never change. -/
theorem run_state : ∀ (ops : List Op) (st : Source × Halo C), (run st ops).1.sizes = st.1.sizes ∧ (run st ops).2.sizes = st.2.sizes ∧
    (run st ops).2.cosmo = st.2.cosmo ∧
    (∀ n ∈ hardNames, (run st ops).2.overrides n = (ops.reverse.findSome? (haloSet st.2.sizes n)).or (st.2.overrides n)) ∧
    (∀ n, (run st ops).1.cols n = (ops.reverse.findSome? (sourceSet st.1.sizes n)).getD (st.1.cols n)) ∧
    (∀ k, (run st ops).2.attrs k = (ops.reverse.findSome? (attrSet k)).or (st.2.attrs k))
  | [], st => by simp [run]
  | o :: l, st => by
    obtain ⟨a, b, c, d, f, g⟩ := run_state l (step st o).1
    obtain ⟨p, q, r⟩ := step_sizes st o
    have hr : run st (o :: l) = run (step st o).1 l := rfl
    rw [hr]
    refine ⟨by rw [a, p], by rw [b, q], by rw [c, r], fun n hn => ?_, fun n => ?_, fun k => ?_⟩
    · rw [d n hn, step_over st o n hn, q]
      simp only [List.reverse_cons, List.findSome?_append, List.findSome?_cons, List.findSome?_nil]
      cases l.reverse.findSome? (haloSet st.2.sizes n) <;> cases haloSet st.2.sizes n o <;> simp
    · rw [f n, step_source st o n, p]
      simp only [List.reverse_cons, List.findSome?_append, List.findSome?_cons, List.findSome?_nil]
      cases l.reverse.findSome? (sourceSet st.1.sizes n) <;> cases sourceSet st.1.sizes n o <;> simp
    · rw [g k, step_attr st o k]
      simp only [List.reverse_cons, List.findSome?_append, List.findSome?_cons, List.findSome?_nil]
      cases l.reverse.findSome? (attrSet k) <;> cases attrSet k o <;> simp

/-- What reading the column of a source gives. -/
def current (sizes : List Nat) (c : Option Col) (name : String) : Except Err Col :=
  match c with
  | some v => .ok v
  | none => if name ∈ ["Selection", "Weight", "Value"] then .ok ⟨none, sizes.map fun n => List.replicate n [1]⟩ else .error .keyError

theorem read_current (s : Source) (n : String) : s.read n = current s.sizes (s.cols n) n := by
  unfold Source.read current defaultCol
  cases s.cols n with
  | some v => rfl
  | none => by_cases h : n ∈ ["Selection", "Weight", "Value"] <;> simp [h]

/-- **The columns Mass, Position and Velocity.** After any changes of columns and attributes, the column is the last value set on the halo catalog; without one it is the column
that the source has now under the name that the attribute says now, which is the name given to the constructor until it is changed. -/
theorem columns_live (e : Env C) (s : Source) (cosmo : C) (z : ℚ) (mdef a b c : String) (h : Halo C)
    (hh : new e (.cat s) cosmo z mdef (some a) (some b) (some c) = .ok h) (ops : List Op) (name key col : String)
    (hn : (name, key, col) ∈ [("Mass", "mass", a), ("Position", "position", b), ("Velocity", "velocity", c)])
    (ha : ∀ o ∈ ops, attrSet key o = none) :
    (run (s, h) ops).2.read e (run (s, h) ops).1 name =
      match ops.reverse.findSome? (haloSet s.sizes name) with
      | some v => .ok v
      | none => current s.sizes ((ops.reverse.findSome? (sourceSet s.sizes col)).getD (s.cols col)) col := by
  obtain ⟨n1, n2, n3, n4, n5, n6, n7, n8, n9, n10, n11, n12⟩ := new_spec e s cosmo z mdef a b c h hh
  obtain ⟨r1, r2, r3, r4, r5, r6⟩ := run_state ops (s, h)
  have hard : name ∈ hardNames := by
    simp only [List.mem_cons, List.not_mem_nil, or_false, Prod.mk.injEq] at hn
    rcases hn with ⟨rfl, _⟩ | ⟨rfl, _⟩ | ⟨rfl, _⟩ <;> simp [hardNames]
  have ho := r4 name hard
  simp only [n2, n3, Option.or_none] at ho
  have hattr : h.attrs key = some (.text col) := by
    simp only [List.mem_cons, List.not_mem_nil, or_false, Prod.mk.injEq] at hn
    rcases hn with ⟨_, rfl, rfl⟩ | ⟨_, rfl, rfl⟩ | ⟨_, rfl, rfl⟩ <;> assumption
  have hk := r6 key
  have hnone : ops.reverse.findSome? (attrSet key) = none := by
    rw [List.findSome?_eq_none_iff]
    intro o hm
    exact ha o (List.mem_reverse.1 hm)
  rw [hnone] at hk
  simp only [Option.none_or, hattr] at hk
  have hb : (run (s, h) ops).2.base (run (s, h) ops).1 name key =
      match ops.reverse.findSome? (haloSet s.sizes name) with
      | some v => .ok v
      | none => current s.sizes ((ops.reverse.findSome? (sourceSet s.sizes col)).getD (s.cols col)) col := by
    unfold Halo.base
    rw [ho]
    cases ops.reverse.findSome? (haloSet s.sizes name) with
    | some v => rfl
    | none =>
      simp only [Halo.text, hk, Except.bind]
      rw [read_current, r1, r5]
  unfold Halo.read
  rw [ho]
  cases hf : ops.reverse.findSome? (haloSet s.sizes name) with
  | some v => rfl
  | none =>
    rw [hf] at hb
    simp only [List.mem_cons, List.not_mem_nil, or_false, Prod.mk.injEq] at hn
    rcases hn with ⟨rfl, rfl, rfl⟩ | ⟨rfl, rfl, rfl⟩ | ⟨rfl, rfl, rfl⟩
    · simpa using hb
    · simpa using hb
    · simpa using hb

theorem onRanks_ok (f : Arr → Except Err (List ℚ)) (g : ℚ → ℚ) (hf : ∀ l, f (.list l) = .ok (l.map g)) :
    ∀ r : List (List (List ℚ)), onRanks f r = .ok (r.map fun l => l.map fun row => [g (row.headD 0)])
  | [] => rfl
  | l :: r => by
    simp only [onRanks, hf, Except.bind, onRanks_ok f g hf r, Except.map, List.map_map, List.map_cons]
    simp [Function.comp_def]

/-- **The derived columns** are those of the Mass and Velocity that the catalog has now, with the redshift and mass definition of `attrs`; unless they have been set. -/
theorem derived_spec (e : Env C) (s : Source) (h : Halo C) (z : ℚ) (mdef : String) (hz : h.attrs "redshift" = some (.num z)) (hm : h.attrs "mdef" = some (.text mdef)) :
    (h.overrides "VelocityOffset" = none → ∀ v, h.read e s "Velocity" = .ok v →
      h.read e s "VelocityOffset" = .ok ⟨v.width, v.ranks.map fun l => l.map fun row => row.map fun x => x * (1 + z) / (100 * e.efunc h.cosmo z)⟩) ∧
    (h.overrides "Concentration" = none → ∀ m, h.read e s "Mass" = .ok m →
      h.read e s "Concentration" = .ok ⟨m.width, m.ranks.map fun l => l.map fun row => [e.conc h.cosmo mdef z (row.headD 0)]⟩) ∧
    (h.overrides "Radius" = none → ∀ m, h.read e s "Mass" = .ok m →
      h.read e s "Radius" = .ok ⟨m.width, m.ranks.map fun l => l.map fun row => [e.radius h.cosmo mdef z (row.headD 0)]⟩) := by
  have hvel : ∀ v, h.read e s "Velocity" = .ok v → h.base s "Velocity" "velocity" = .ok v := by
    intro v hv
    unfold Halo.read at hv
    unfold Halo.base at hv ⊢
    cases ho : h.overrides "Velocity" with
    | some w => simpa [ho] using hv
    | none => simpa [ho] using hv
  have hmass : ∀ v, h.read e s "Mass" = .ok v → h.base s "Mass" "mass" = .ok v := by
    intro v hv
    unfold Halo.read at hv
    unfold Halo.base at hv ⊢
    cases ho : h.overrides "Mass" with
    | some w => simpa [ho] using hv
    | none => simpa [ho] using hv
  have hz' : h.num "redshift" = .ok z := by unfold Halo.num; rw [hz]
  have hm' : h.text "mdef" = .ok mdef := by unfold Halo.text; rw [hm]
  refine ⟨?_, ?_, ?_⟩
  · intro ho v hv
    unfold Halo.read
    rw [ho]
    simp only [hz', Except.bind, hvel v hv, Except.map, Col.mapRows]
    simp [mul_div_assoc]
  · intro ho m hr
    unfold Halo.read
    rw [ho]
    simp only [hz', hm', Except.bind, hmass m hr]
    rw [onRanks_ok (fun a => haloConcentration e h.cosmo mdef a (.scalar z)) (fun q => e.conc h.cosmo mdef z q) (fun l => (formulas_scalar e h.cosmo mdef l z).1)]
    simp [Except.map]
  · intro ho m hr
    unfold Halo.read
    rw [ho]
    simp only [hz', hm', Except.bind, hmass m hr]
    rw [onRanks_ok (fun a => haloRadius e h.cosmo mdef a (.scalar z)) (fun q => e.radius h.cosmo mdef z q) (fun l => (formulas_scalar e h.cosmo mdef l z).2.1)]
    simp [Except.map]

/-- Changes that are refused change nothing. -/
theorem refused_unchanged (st : Source × Halo C) (o : Op) (x : Err) (h : (step st o).2 = some x) : (step st o).1 = st := by
  cases o with
  | setSource n v => simp only [step] at h ⊢; split at h <;> simp_all
  | delSource n => simp only [step] at h ⊢; split at h <;> simp_all
  | setHalo n v => simp only [step] at h ⊢; split at h <;> simp_all
  | delHalo n =>
    simp only [step] at h ⊢
    split at h
    · simp_all
    · split at h <;> simp_all
  | setAttr k v => simp [step] at h

end NBK.HaloObj
