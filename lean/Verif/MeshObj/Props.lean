import Verif.MeshObj.Model
import Mathlib.Tactic.ByContra
import Mathlib.Data.List.Basic

/-!
# C122: what a mesh object computes
-/
set_option linter.unusedSimpArgs false
namespace NBK.MeshObj

variable {R P A : Type}

/-! ## The source of a mesh -/

/-- A field that `to_real_field` or `to_complex_field` returns. -/
def Fld.usable : Fld R → Prop
  | .un _ => False
  | _ => True

/-- The field behind a mesh and the attributes that come with it: the field it refers to, a new realisation, that of the base. -/
inductive Origin (e : Env R P A) (w : World R P) : Nat → FieldObj R → Prop where
  | field (m f : Nat) (o : MeshObj R P) (x : FieldObj R) (h : w.meshes[m]? = some o) (hs : o.src = .field f) (hf : w.fields[f]? = some x) (hu : x.data.usable) :
      Origin e w m (copyOf e x)
  | linear (m : Nat) (p : P) (o : MeshObj R P) (y : CF) (h : w.meshes[m]? = some o) (hs : o.src = .linear p) (hy : linearField e w p o = .ok y) :
      Origin e w m ⟨.co y, o.nmesh, o.box, o.attrs⟩
  | view (m b : Nat) (o : MeshObj R P) (x : FieldObj R) (h : w.meshes[m]? = some o) (hs : o.src = .view b) (hb : Origin e w b x) : Origin e w m x

/-- Bases come before their views; fields and values that are referred to exist. -/
structure World.WF (w : World R P) : Prop where
  base : ∀ (m : Nat) (o : MeshObj R P) (b : Nat), w.meshes[m]? = some o → o.src = .view b → b < m
  field : ∀ (m : Nat) (o : MeshObj R P) (f : Nat), w.meshes[m]? = some o → o.src = .field f → f < w.fields.length
  mattr : ∀ (m : Nat) (o : MeshObj R P) (k : String) (r : Nat), w.meshes[m]? = some o → o.attrs k = some r → r < w.vals.length
  fattr : ∀ (f : Nat) (o : FieldObj R) (k : String) (r : Nat), w.fields[f]? = some o → o.attrs k = some r → r < w.vals.length

theorem origin_usable (e : Env R P A) (w : World R P) (m : Nat) (x : FieldObj R) (h : Origin e w m x) : x.data.usable := by
  induction h with
  | field m f o x h hs hf hu => exact hu
  | linear => trivial
  | view _ _ _ _ _ _ _ ih => exact ih

/-- With enough fuel the methods return the field behind the mesh, in the mode that it has. -/
theorem methods (e : Env R P A) (w : World R P) (hw : w.WF) (m : Nat) (x : FieldObj R) (h : Origin e w m x) : ∀ fuel, m < fuel →
    (∀ a, x.data = .re a → toReal e w fuel m = .ok (some x) ∧ toComplex e w fuel m = .ok none) ∧
    (∀ y, x.data = .co y → toReal e w fuel m = .ok none ∧ toComplex e w fuel m = .ok (some x)) := by
  induction h with
  | field m f o x h hs hf hu =>
    intro fuel hm
    obtain ⟨fuel, rfl⟩ : ∃ n, fuel = n + 1 := ⟨fuel - 1, by omega⟩
    simp only [toReal, toComplex, h, hs, hf]
    have : (copyOf e x).data = x.data := rfl
    rw [this]
    constructor
    · intro a ha; simp [ha]
    · intro y hy; simp [hy]
  | linear m p o y h hs hy =>
    intro fuel hm
    obtain ⟨fuel, rfl⟩ : ∃ n, fuel = n + 1 := ⟨fuel - 1, by omega⟩
    simp only [toReal, toComplex, h, hs, hy]
    constructor
    · intro a ha; cases ha
    · intro z _; exact ⟨trivial, rfl⟩
  | view m b o x h hs hb ih =>
    intro fuel hm
    obtain ⟨fuel, rfl⟩ : ∃ n, fuel = n + 1 := ⟨fuel - 1, by omega⟩
    simp only [toReal, toComplex, h, hs]
    exact ih fuel (by have := hw.base m o b h hs; omega)

theorem origin_mesh (e : Env R P A) (w : World R P) (m : Nat) (x : FieldObj R) (h : Origin e w m x) : ∃ o, w.meshes[m]? = some o := by
  cases h with
  | field _ _ o _ h => exact ⟨o, h⟩
  | linear _ _ o _ h => exact ⟨o, h⟩
  | view _ _ o _ h => exact ⟨o, h⟩

/-- `to_field`: the field behind the mesh, transformed if it has the other mode. -/
theorem toField_spec (e : Env R P A) (w : World R P) (hw : w.WF) (m : Nat) (x : FieldObj R) (h : Origin e w m x) (mode : Mode) :
    toField e w m mode = .ok { x with data := convert e mode x.data } := by
  obtain ⟨o, ho⟩ := origin_mesh e w m x h
  have hm : m < w.meshes.length := (List.getElem?_eq_some_iff.1 ho).1
  obtain ⟨h1, h2⟩ := methods e w hw m x h _ hm
  have hu := origin_usable e w m x h
  obtain ⟨d, n, b, a⟩ := x
  cases d with
  | re a =>
    obtain ⟨r1, r2⟩ := h1 a rfl
    cases mode <;> simp only [toField, r1, r2, Except.bind, convert]
  | co y =>
    obtain ⟨r1, r2⟩ := h2 y rfl
    cases mode <;> simp only [toField, r1, r2, Except.bind, convert]
  | un y => exact absurd hu (fun h => h)

/-! ## `compute` -/

theorem convert_idem (e : Env R P A) (m : Mode) (x : Fld R) : convert e m (convert e m x) = convert e m x := by
  cases m <;> cases x <;> rfl

/-- **`compute`**: the field behind the mesh, the actions in the order they were added, the mode asked for; resampled if another `Nmesh` is given. The attributes are those of the
mesh, then those of the source. -/
theorem compute_spec (e : Env R P A) (w : World R P) (hw : w.WF) (m : Nat) (o : MeshObj R P) (ho : w.meshes[m]? = some o) (x : FieldObj R) (h : Origin e w m x) (mode : Mode) :
    ∃ f, computeField e w m (some mode) none = .ok f ∧
      f.data = convert e mode (o.actions.foldl (Act.run e) (convert e ((o.actions.head?.map Act.mode).getD mode) x.data)) ∧
      f.nmesh = x.nmesh ∧ f.box = x.box ∧ (∀ k, f.attrs k = (o.attrs k).or (x.attrs k)) ∧
      ∀ n, n.length = o.nmesh.length → n ≠ o.nmesh → ∃ g, computeField e w m (some mode) (some (.many n)) = .ok g ∧ g.data = resample e o.nmesh n f.data ∧ g.nmesh = n ∧ g.attrs = f.attrs := by
  refine ⟨⟨convert e mode (o.actions.foldl (Act.run e) (convert e ((o.actions.head?.map Act.mode).getD mode) x.data)), x.nmesh, x.box, x.attrs.update o.attrs⟩, ?_, rfl, rfl, rfl,
    fun _ => rfl, ?_⟩
  · unfold computeField
    simp only [ho, toField_spec e w hw m x h, Except.bind, reshape, Except.map]
    rw [if_neg (fun hc => hc rfl)]
  · intro n hl hn
    refine ⟨⟨resample e o.nmesh n (convert e mode (o.actions.foldl (Act.run e) (convert e ((o.actions.head?.map Act.mode).getD mode) x.data))), n, o.box, x.attrs.update o.attrs⟩, ?_,
      rfl, rfl, rfl⟩
    unfold computeField
    simp only [ho, toField_spec e w hw m x h, Except.bind, reshape, hl, if_true, Except.map]
    rw [if_pos hn]

/-- The new action is applied last, in its own space, to what the mesh computes. -/
theorem apply_then (e : Env R P A) (w : World R P) (hw : w.WF) (m : Nat) (o : MeshObj R P) (ho : w.meshes[m]? = some o) (x : FieldObj R) (h : Origin e w m x) (a : Act R) (mode : Mode)
    (o' : MeshObj R P) (m' : Nat) (ho' : w.meshes[m']? = some o') (hs : o'.src = .view m) (ha : o'.actions = o.actions ++ [a]) :
    ∃ f g, computeField e w m (some a.mode) none = .ok f ∧ computeField e w m' (some mode) none = .ok g ∧ g.data = convert e mode (a.run e f.data) := by
  obtain ⟨f, hf, hd, _⟩ := compute_spec e w hw m o ho x h a.mode
  obtain ⟨g, hg, hd', _⟩ := compute_spec e w hw m' o' ho' x (.view m' m o' x ho' hs h) mode
  refine ⟨f, g, hf, hg, ?_⟩
  rw [hd', hd, ha, List.foldl_append]
  have hrun : ∀ y : Fld R, a.run e (convert e a.mode y) = a.run e y := by
    intro y
    unfold Act.run
    rw [convert_idem]
  cases hacts : o.actions with
  | nil => simp [hrun]
  | cons b l => simp [hrun]

/-- An invalid mode. -/
theorem compute_mode (e : Env R P A) (w : World R P) (m : Nat) (n : Option (Arg Nat)) : computeField e w m none n = .error .valueError := rfl

/-! ## `preview` -/

/-- **`preview` knows no actions**: it shows the field behind the mesh. -/
theorem preview_spec (e : Env R P A) (w : World R P) (hw : w.WF) (m : Nat) (o : MeshObj R P) (ho : w.meshes[m]? = some o) (x : FieldObj R) (h : Origin e w m x) :
    ∃ a, convert e .real x.data = .re a ∧ preview e w m none = .ok (e.preview a o.nmesh) := by
  have hu := origin_usable e w m x h
  have hconv : ∃ a, convert e .real x.data = .re a := by
    cases x.data <;> exact ⟨_, rfl⟩
  obtain ⟨a, ha⟩ := hconv
  refine ⟨a, ha, ?_⟩
  unfold preview
  simp only [toField_spec e w hw m x h, ho, reshape, Except.bind, ha]

/-- Without actions it is a preview of the computed field. -/
theorem preview_right (e : Env R P A) (w : World R P) (hw : w.WF) (m : Nat) (o : MeshObj R P) (ho : w.meshes[m]? = some o) (x : FieldObj R) (h : Origin e w m x) (hn : o.actions = []) :
    ∃ f a, computeField e w m (some .real) none = .ok f ∧ f.data = .re a ∧ preview e w m none = .ok (e.preview a o.nmesh) := by
  obtain ⟨f, hf, hd, _⟩ := compute_spec e w hw m o ho x h .real
  obtain ⟨a, ha, hp⟩ := preview_spec e w hw m o ho x h
  refine ⟨f, a, hf, ?_, hp⟩
  rw [hd, hn]
  simp only [List.foldl_nil, List.head?_nil, Option.map_none, Option.getD_none, convert_idem, ha]
  rfl

/-! ## Fields that are neither -/

/-- A mesh whose field is of another complex class. -/
inductive Broken (w : World R P) : Nat → Prop where
  | field (m f : Nat) (o : MeshObj R P) (x : FieldObj R) (y : CF) (h : w.meshes[m]? = some o) (hs : o.src = .field f) (hf : w.fields[f]? = some x) (hu : x.data = .un y) : Broken w m
  | view (m b : Nat) (o : MeshObj R P) (h : w.meshes[m]? = some o) (hs : o.src = .view b) (hb : Broken w b) : Broken w m

theorem broken_methods (e : Env R P A) (w : World R P) (hw : w.WF) (m : Nat) (h : Broken w m) : ∀ fuel, m < fuel → toReal e w fuel m = .ok none ∧ toComplex e w fuel m = .ok none := by
  induction h with
  | field m f o x y h hs hf hu =>
    intro fuel hm
    obtain ⟨fuel, rfl⟩ : ∃ n, fuel = n + 1 := ⟨fuel - 1, by omega⟩
    simp [toReal, toComplex, h, hs, hf, hu]
  | view m b o h hs hb ih =>
    intro fuel hm
    obtain ⟨fuel, rfl⟩ : ∃ n, fuel = n + 1 := ⟨fuel - 1, by omega⟩
    simp only [toReal, toComplex, h, hs]
    exact ih fuel (by have := hw.base m o b h hs; omega)

/-- `FieldMesh` accepts every field, and a field of another complex class is refused only when it is used: nothing can be computed from the mesh. -/
theorem broken_spec (e : Env R P A) (w : World R P) (hw : w.WF) (m : Nat) (h : Broken w m) (mode : Mode) (n : Option (Arg Nat)) :
    computeField e w m (some mode) n = .error .assertionError ∧ preview e w m n = .error .assertionError := by
  obtain ⟨o, ho⟩ : ∃ o, w.meshes[m]? = some o := by
    cases h with
    | field _ _ o _ _ h => exact ⟨o, h⟩
    | view _ _ o h => exact ⟨o, h⟩
  have hm : m < w.meshes.length := (List.getElem?_eq_some_iff.1 ho).1
  obtain ⟨r1, r2⟩ := broken_methods e w hw m h _ hm
  have ht : ∀ mode, toField e w m mode = .error .assertionError := by
    intro mode
    cases mode <;> simp only [toField, r1, r2, Except.bind]
  constructor
  · unfold computeField
    simp only [ho, ht, Except.bind]
  · unfold preview
    simp only [ht, Except.bind]

/-! ## `LinearMesh` -/

theorem freq_zero (n i : Nat) (h : i < n) : freq n i = 0 ↔ i = 0 := by
  unfold freq
  split <;> omega

/-- The mean of the field: the mode of zero wavenumber is one, every other mode is that of the Gaussian field. -/
theorem unit_mean (nmesh : List Nat) (y : CF) (k : List Nat) (hl : k.length = nmesh.length) (hk : ∀ i, (h : i < k.length) → k[i] < nmesh[i]'(hl ▸ h)) :
    unitMean nmesh y k = if k = List.replicate nmesh.length 0 then ⟨1, 0⟩ else y k := by
  unfold unitMean
  have : ((nmesh.zip k).all fun p => decide (freq p.1 p.2 = 0)) = true ↔ k = List.replicate nmesh.length 0 := by
    rw [List.all_eq_true]
    constructor
    · intro h
      rw [List.eq_replicate_iff]
      refine ⟨hl, ?_⟩
      intro b hb
      obtain ⟨i, hi, rfl⟩ := List.getElem_of_mem hb
      have hz : (nmesh[i]'(hl ▸ hi), k[i]) ∈ nmesh.zip k := by
        have : i < (nmesh.zip k).length := by rw [List.length_zip]; omega
        have h2 := List.getElem_mem this
        rw [List.getElem_zip] at h2
        exact h2
      have := h _ hz
      simp only [decide_eq_true_eq] at this
      exact (freq_zero _ _ (hk i hi)).1 this
    · intro h p hp
      obtain ⟨i, hi, rfl⟩ := List.getElem_of_mem hp
      rw [List.getElem_zip]
      have hik : i < k.length := by rw [List.length_zip] at hi; omega
      have h0 : k[i] = 0 := by
        have := List.eq_replicate_iff.1 h
        exact this.2 _ (List.getElem_mem hik)
      simp only [decide_eq_true_eq]
      exact (freq_zero _ _ (hk i hik)).2 h0
  by_cases hc : k = List.replicate nmesh.length 0
  · rw [if_pos hc, if_pos (this.2 hc)]
  · rw [if_neg hc, if_neg (fun h => hc (this.1 h))]

/-- **`LinearMesh`**: its field is that of the seed and the switches it reports. -/
theorem linear_reported (e : Env R P A) (w : World R P) (hw : w.WF) (m : Nat) (o : MeshObj R P) (ho : w.meshes[m]? = some o) (p : P) (hs : o.src = .linear p) (f : FieldObj R)
    (hn : o.actions = []) (h : computeField e w m (some .complex) none = .ok f) :
    ∃ s u i, w.attr f.attrs "seed" = some (.num s) ∧ w.attr f.attrs "unitary_amplitude" = some u ∧ w.attr f.attrs "inverted_phase" = some i ∧
      f.data = .co (unitMean o.nmesh (e.gauss p s u.truthy i.truthy o.nmesh o.box)) := by
  cases hy : linearField e w p o with
  | error x =>
    have hm : m < w.meshes.length := (List.getElem?_eq_some_iff.1 ho).1
    obtain ⟨k, hk⟩ : ∃ n, w.meshes.length = n + 1 := ⟨w.meshes.length - 1, by omega⟩
    have : toField e w m .complex = .error x := by
      unfold toField
      simp only [hk, toComplex, ho, hs, hy, Except.map, Except.bind]
    unfold computeField at h
    simp only [ho, hn, List.head?_nil, Option.map_none, Option.getD_none, this, Except.bind] at h
    cases h
  | ok y =>
    obtain ⟨f', hf', hd, _, _, hattr, _⟩ := compute_spec e w hw m o ho _ (.linear m p o y ho hs hy) .complex
    rw [hf'] at h
    injection h with h
    subst h
    have hat : ∀ k, w.attr f'.attrs k = w.attr o.attrs k := by
      intro k
      unfold World.attr
      rw [hattr k]
      dsimp only
      cases ho : o.attrs k <;> simp
    rw [hat, hat, hat]
    rw [hn] at hd
    simp only [List.foldl_nil, List.head?_nil, Option.map_none, Option.getD_none, convert] at hd
    rw [hd]
    unfold linearField at hy
    split at hy
    · rename_i s u i h1 h2 h3
      injection hy with hy
      exact ⟨s, u, i, h1, h2, h3, by rw [hy]⟩
    all_goals cases hy

/-- A seed that is not given is drawn once, and `remove_variance`, if given, wins over `unitary_amplitude`. -/
theorem linear_attrs (w : World R P) (p : P) (plin : List (String × Val)) (box : Option (Arg ℚ)) (nmesh : Option (Arg Nat)) (seed : Option ℚ) (draw : ℚ) (u i : Bool) (rv : Option Bool)
    (w' : World R P) (m : Nat) (h : newLinear w p plin box nmesh seed draw u i rv = .ok (w', m)) :
    ∃ o, w'.meshes[m]? = some o ∧ o.src = .linear p ∧ o.actions = [] ∧ w'.attr o.attrs "seed" = some (.num (seed.getD draw)) ∧
      w'.attr o.attrs "unitary_amplitude" = some (.flag (rv.getD u)) ∧ w'.attr o.attrs "inverted_phase" = some (.flag i) ∧
      w'.attr o.attrs "BoxSize" = some (.arr o.box) ∧ w'.attr o.attrs "Nmesh" = some (.arr (o.nmesh.map fun (i : Nat) => (i : ℚ))) := by
  unfold newLinear newMesh at h
  split at h
  · cases h
  · cases hn : shapeOf nmesh with
    | error x => rw [hn] at h; cases h
    | ok n =>
      rw [hn] at h
      cases hb : boxOf n.length box with
      | error x => simp only [Except.bind, hb] at h; cases h
      | ok b =>
        simp only [Except.bind, hb, Except.map, Except.ok.injEq, Prod.mk.injEq] at h
        obtain ⟨rfl, rfl⟩ := h
        have halloc : ∀ (l : List (String × Val)) (vals : List Val) (d : Dict) (l' : List (String × Val)),
            alloc vals d (l ++ l') = alloc (alloc vals d l).1 (alloc vals d l).2 l' := by
          intro l
          induction l with
          | nil => intros; rfl
          | cons a l ih => intro vals d l'; exact ih _ _ _
        refine ⟨_, List.getElem?_concat_length, rfl, rfl, ?_⟩
        unfold linearAttrs
        simp only [List.append_assoc, halloc]
        generalize hq : alloc w.vals (fun _ => none) (plin.map fun p => ("plin." ++ p.1, p.2)) = q
        obtain ⟨v, d⟩ := q
        refine ⟨?_, ?_, ?_, ?_, ?_⟩ <;> simp [alloc, World.attr, Dict.set]

end NBK.MeshObj
