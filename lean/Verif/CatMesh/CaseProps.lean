import Mathlib.Data.Rat.Floor
import Verif.CatMesh.StateProps

/-!
# Settings, attributes of the result, painting into a field, and cases (C127)
-/
set_option linter.unusedSimpArgs false
namespace NBK.CatMesh
open NBK.MeshObj (Fld Fn Act Func Val Dict Arg Mode Err CF)
variable {Pos : Type}

theorem putAttr_spec (w : World Pos) (m : Nat) (o : Mesh Pos) (ho : w.meshes[m]? = some o) (hcl : Closed w o.attrs) (k : String) (v : Val) :
    ∃ o' : Mesh Pos, (putAttr w m o k v).meshes[m]? = some o' ∧ o'.src = o.src ∧ o'.actions = o.actions ∧ o'.nmesh = o.nmesh ∧ o'.box = o.box ∧
      attrOf (putAttr w m o k v) o'.attrs k = some v ∧ ∀ k' : String, k' ≠ k → attrOf (putAttr w m o k v) o'.attrs k' = attrOf w o.attrs k' := by
  refine ⟨{ o with attrs := o.attrs.set k w.vals.length }, ?_, rfl, rfl, rfl, rfl, ?_, ?_⟩
  · unfold putAttr
    dsimp only
    rw [List.getElem?_set_self (List.getElem?_eq_some_iff.mp ho).1]
  · unfold attrOf putAttr MeshObj.Dict.set
    simp
  · intro k' hk
    unfold attrOf putAttr MeshObj.Dict.set
    dsimp only
    rw [if_neg hk]
    cases hd : o.attrs k' with
    | none => rfl
    | some r => exact append_vals _ _ _ (hcl k' r hd)

/-- `mesh.interlaced = v`, `mesh.compensated = v`: the setting has the new value, everything else of the mesh is as before. -/
theorem set_spec (e : Env Pos) (w : World Pos) (m : Nat) (o : Mesh Pos) (ho : w.meshes[m]? = some o) (c : Nat) (x : Cols Pos) (hx : o.src = .cat c x)
    (hcl : Closed w o.attrs) (s : Setting) (v : Val) :
    ∃ w' o', step e w (.set m s v) = .ok w' ∧ w'.meshes[m]? = some o' ∧ o'.src = .cat c x ∧ o'.actions = o.actions ∧ o'.nmesh = o.nmesh ∧ o'.box = o.box ∧
      attrOf w' o'.attrs s.name = some v ∧ ∀ k : String, k ≠ s.name → attrOf w' o'.attrs k = attrOf w o.attrs k := by
  obtain ⟨o', h1, h2, h3, h4, h5, h6, h7⟩ := putAttr_spec w m o ho hcl s.name v
  refine ⟨_, o', ?_, h1, h2.trans hx, h3, h4, h5, h6, h7⟩
  unfold step
  dsimp only
  rw [ho]
  dsimp only
  rw [hx]

/-- `mesh.resampler = name` (or `window`): an unknown name is refused, a known one is stored in lower case. -/
theorem resampler_spec (e : Env Pos) (w : World Pos) (m : Nat) (o : Mesh Pos) (ho : w.meshes[m]? = some o) (c : Nat) (x : Cols Pos) (hx : o.src = .cat c x)
    (hcl : Closed w o.attrs) (name : String) :
    (name ∉ e.methods → step e w (.setResampler m name) = .error .assertionError) ∧
    (name ∈ e.methods → ∃ w' o', step e w (.setResampler m name) = .ok w' ∧ w'.meshes[m]? = some o' ∧ o'.src = .cat c x ∧ o'.actions = o.actions ∧ o'.nmesh = o.nmesh ∧
      o'.box = o.box ∧ attrOf w' o'.attrs "resampler" = some (.text (e.lower name)) ∧ ∀ k : String, k ≠ "resampler" → attrOf w' o'.attrs k = attrOf w o.attrs k) := by
  have hst : step e w (.setResampler m name) = if name ∈ e.methods then .ok (putAttr w m o "resampler" (.text (e.lower name))) else .error .assertionError := by
    conv_lhs => unfold step
    dsimp only
    rw [ho]
    dsimp only
    rw [hx]
  rw [hst]
  constructor
  · intro h; rw [if_neg h]
  · intro h
    rw [if_pos h]
    obtain ⟨o', h1, h2, h3, h4, h5, h6, h7⟩ := putAttr_spec w m o ho hcl "resampler" (.text (e.lower name))
    exact ⟨_, o', rfl, h1, h2.trans hx, h3, h4, h5, h6, h7⟩

/-- `mesh.Weight = x` and the others: only this column of this mesh. -/
theorem assign_spec (e : Env Pos) (w : World Pos) (m : Nat) (o : Mesh Pos) (ho : w.meshes[m]? = some o) (c : Nat) (x : Cols Pos) (hx : o.src = .cat c x) (s : Slot)
    (v : Option (Col Pos)) : ∃ w' x', step e w (.assign m s v) = .ok w' ∧ w'.meshes[m]? = some { o with src := .cat c x' } ∧ w'.vals = w.vals ∧ w'.cats = w.cats ∧
      x'.pos = (if s = .position then v else x.pos) ∧ x'.weight = (if s = .weight then v else x.weight) ∧ x'.value = (if s = .value then v else x.value) ∧
      x'.sel = (if s = .selection then v else x.sel) := by
  refine ⟨{ w with meshes := w.meshes.set m { o with src := .cat c (x.put v s) } }, x.put v s, ?_, ?_, rfl, rfl, ?_⟩
  · unfold step
    dsimp only
    rw [ho]
    dsimp only
    rw [hx]
  · dsimp only
    rw [List.getElem?_set_self (List.getElem?_eq_some_iff.mp ho).1]
  · cases s <;> exact ⟨rfl, rfl, rfl, rfl⟩

/-- The attributes of the result are those of the mesh; the numbers found while painting only appear under names the mesh does not have. -/
theorem compute_attrs (e : Env Pos) (w : World Pos) (m : Nat) (o : Mesh Pos) (ho : w.meshes[m]? = some o) (hcl : Closed w o.attrs) (mode : Option Mode)
    (nm : Option (Arg Nat)) (w' : World Pos) (f : Nat) (h : compute e w m mode nm = .ok (w', f)) :
    ∃ d fo, computeData e w m mode nm = .ok d ∧ w'.fields = w.fields ++ [fo] ∧ f = w.fields.length ∧ w'.meshes = w.meshes ∧ w'.cats = w.cats ∧ fo.data = d.1 ∧
      fo.nmesh = d.2.2.1 ∧ fo.box = d.2.2.2 ∧
      ∀ k : String, attrOf w' fo.attrs k = (attrOf w o.attrs k).or ((d.2.1.reverse.find? fun p => p.1 = k).map Prod.snd) := by
  unfold compute at h
  cases hc : computeData e w m mode nm with
  | error => rw [hc] at h; cases h
  | ok d =>
    rw [hc] at h
    dsimp only [Except.bind] at h
    rw [ho] at h
    dsimp only at h
    injection h with h
    injection h with h1 h2
    subst h1 h2
    obtain ⟨i1, i2, i3⟩ := alloc_spec d.2.1 w.vals (fun _ => none)
    refine ⟨d, _, rfl, rfl, rfl, rfl, rfl, rfl, rfl, rfl, ?_⟩
    intro k
    unfold attrOf MeshObj.Dict.update
    dsimp only
    cases hd : o.attrs k with
    | none =>
      have := i3 k
      simp only [Option.bind_none, Option.or_none] at this
      simp only [Option.none_or, Option.bind_none, this]
    | some r =>
      have hr := hcl k r hd
      simp only [Option.some_or, Option.bind_some]
      rw [i1 r hr, List.getElem?_eq_getElem hr]
      rfl

/-- `to_real_field(out=f, normalize)`: the mass is added to what the field holds; if normalising, everything is divided by the mean of the objects painted now. -/
theorem paintInto_spec (e : Env Pos) (w : World Pos) (m f : Nat) (o : Mesh Pos) (ho : w.meshes[m]? = some o) (c : Nat) (x : Cols Pos) (hx : o.src = .cat c x)
    (inter comp : Bool) (win : String) (hs : Settings w o inter comp win) (hwin : win ∈ e.methods) (rows : List (Row Pos)) (hr : rowsOf e.chunk x = .ok rows)
    (hn : 0 < o.nmesh.prod) (fo : MeshObj.FieldObj Rf) (hf : w.fields[f]? = some fo) (old : Rf) (hd : fo.data = .re old) (hnm : fo.nmesh = o.nmesh) (normalize : Bool) :
    ∃ w' fo' new, paintInto e w m f normalize = .ok w' ∧ w'.fields = w.fields.set f fo' ∧ w'.meshes = w.meshes ∧ w'.cats = w.cats ∧ fo'.data = .re new ∧
      (∀ cell, new cell = if normalize then
          (if 0 < (rows.map Row.weight).sum then (old cell + (rows.map fun r => r.weight * r.value * e.dep win inter r.pos cell).sum) * o.nmesh.prod / (rows.map Row.weight).sum else 1)
        else old cell + (rows.map fun r => r.weight * r.value * e.dep win inter r.pos cell).sum) ∧
      ∀ k : String, attrOf w' fo'.attrs k = ((stats rows o.nmesh.prod o.box.prod).reverse.find? fun p => p.1 = k).map Prod.snd := by
  have hq : (0 : ℚ) < o.nmesh.prod := by exact_mod_cast hn
  unfold paintInto
  rw [ho, hf]
  dsimp only
  rw [hx, hd]
  dsimp only
  have hwo : windowOf e w o.attrs = .ok win := by
    unfold windowOf nameOf
    rw [hs.win]
    dsimp only [Except.bind]
    rw [if_pos hwin]
  rw [hwo, paintCat_eq e w o x inter comp win hs hwin rows hr]
  dsimp only [Except.bind, Except.map]
  rw [if_neg (fun h => h hnm)]
  obtain ⟨i1, i2, i3⟩ := alloc_spec (stats rows o.nmesh.prod o.box.prod) w.vals (fun _ => none)
  refine ⟨_, _, _, rfl, rfl, rfl, rfl, rfl, ?_, ?_⟩
  · intro cell
    unfold finish painted
    cases normalize with
    | false => rfl
    | true =>
      rw [if_pos rfl, if_pos rfl]
      by_cases h : 0 < (rows.map Row.weight).sum
      · rw [if_pos (div_pos h hq), if_pos h, div_div_eq_mul_div]
      · rw [if_neg (fun hd => h (by rw [div_eq_mul_inv] at hd; exact pos_of_mul_pos_left hd (le_of_lt (inv_pos.mpr hq)))), if_neg h]
  · intro k
    have := i3 k
    simp only [Option.bind_none, Option.or_none] at this
    exact this

/-- A view drops both arguments: the field given as `out` is not changed, and the result is normalised whatever was asked. -/
theorem paintInto_view (e : Env Pos) (w : World Pos) (m f : Nat) (o : Mesh Pos) (ho : w.meshes[m]? = some o) (b : Nat) (hx : o.src = .view b) (normalize : Bool) (w' : World Pos)
    (h : paintInto e w m f normalize = .ok w') : paintInto e w m f (!normalize) = .ok w' ∧ ∃ fo, w'.fields = w.fields ++ [fo] := by
  unfold paintInto at h ⊢
  rw [ho] at h ⊢
  cases hf : w.fields[f]? with
  | none => rw [hf] at h; cases h
  | some x =>
    rw [hf] at h
    dsimp only at h ⊢
    rw [hx] at h ⊢
    dsimp only at h ⊢
    refine ⟨h, ?_⟩
    cases hr : toReal e w w.meshes.length m (fun _ => 0) true with
    | error => rw [hr] at h; cases h
    | ok y =>
      rw [hr] at h
      injection h with h
      subst h
      exact ⟨_, rfl⟩

/-! ## References in programs -/

/-- All references exist. -/
structure AllClosed (w : World Pos) : Prop where
  cats : ∀ (i : Nat) (c : Cat Pos), w.cats[i]? = some c → Closed w c.attrs
  meshes : ∀ (i : Nat) (m : Mesh Pos), w.meshes[i]? = some m → Closed w m.attrs
  fields : ∀ (i : Nat) (f : MeshObj.FieldObj Rf), w.fields[i]? = some f → Closed w f.attrs

theorem Closed.mono {w w' : World Pos} (h : w.vals.length ≤ w'.vals.length) {d : Dict} (hd : Closed w d) : Closed w' d :=
  fun k r hk => Nat.lt_of_lt_of_le (hd k r hk) h

theorem append_get {α : Type} (l : List α) (x y : α) (i : Nat) (h : (l ++ [x])[i]? = some y) : l[i]? = some y ∨ y = x := by
  by_cases hi : i < l.length
  · rw [List.getElem?_append_left hi] at h; exact .inl h
  · rw [List.getElem?_append_right (by omega)] at h
    right
    cases hj : i - l.length with
    | zero => rw [hj] at h; simpa using h.symm
    | succ j => rw [hj] at h; simp at h

theorem set_get {α : Type} (l : List α) (j : Nat) (x y : α) (i : Nat) (h : (l.set j x)[i]? = some y) : l[i]? = some y ∨ y = x := by
  by_cases hj : j = i
  · subst hj
    by_cases hl : j < l.length
    · rw [List.getElem?_set_self hl] at h; injection h with h; exact .inr h.symm
    · rw [List.set_eq_of_length_le (by omega)] at h; exact .inl h
  · rw [List.getElem?_set_ne hj] at h; exact .inl h

theorem alloc_closed (l : List (String × Val)) (vals : List Val) (d : Dict) (h : ∀ k r, d k = some r → r < vals.length) :
    ∀ k r, (MeshObj.alloc vals d l).2 k = some r → r < (MeshObj.alloc vals d l).1.length := by
  induction l generalizing vals d with
  | nil => exact h
  | cons x l ih =>
    obtain ⟨a, v⟩ := x
    refine ih (vals ++ [v]) (d.set a vals.length) ?_
    intro k r hk
    unfold MeshObj.Dict.set at hk
    rw [List.length_append, List.length_singleton]
    by_cases hka : k = a
    · rw [if_pos hka] at hk; injection hk with hk; omega
    · rw [if_neg hka] at hk; have := h k r hk; omega

theorem setDict_closed (w w' : World Pos) (d : Dict) (hd : Closed w d) (k : String) (hv : w'.vals.length = w.vals.length + 1) : Closed w' (d.set k w.vals.length) := by
  intro k' r hk
  unfold MeshObj.Dict.set at hk
  by_cases h : k' = k
  · rw [if_pos h] at hk; injection hk with hk; omega
  · rw [if_neg h] at hk; have := hd k' r hk; omega

theorem closed_of (w w' : World Pos) (h : AllClosed w) (hv : w.vals.length ≤ w'.vals.length)
    (hc : ∀ (i : Nat) (c : Cat Pos), w'.cats[i]? = some c → Closed w' c.attrs ∨ ∃ (j : Nat) (c' : Cat Pos), w.cats[j]? = some c' ∧ c'.attrs = c.attrs)
    (hm : ∀ (i : Nat) (c : Mesh Pos), w'.meshes[i]? = some c → Closed w' c.attrs ∨ ∃ (j : Nat) (c' : Mesh Pos), w.meshes[j]? = some c' ∧ c'.attrs = c.attrs)
    (hf : ∀ (i : Nat) (c : MeshObj.FieldObj Rf), w'.fields[i]? = some c → Closed w' c.attrs ∨ ∃ (j : Nat) (c' : MeshObj.FieldObj Rf), w.fields[j]? = some c' ∧ c'.attrs = c.attrs) :
    AllClosed w' := by
  refine ⟨?_, ?_, ?_⟩
  · intro i c hi
    rcases hc i c hi with h1 | ⟨j, c', h1, h2⟩
    · exact h1
    · rw [← h2]; exact (h.cats j c' h1).mono hv
  · intro i c hi
    rcases hm i c hi with h1 | ⟨j, c', h1, h2⟩
    · exact h1
    · rw [← h2]; exact (h.meshes j c' h1).mono hv
  · intro i c hi
    rcases hf i c hi with h1 | ⟨j, c', h1, h2⟩
    · exact h1
    · rw [← h2]; exact (h.fields j c' h1).mono hv

theorem writeVal_closed (w w' : World Pos) (d : Dict) (k : String) (l : List ℚ) (hc : AllClosed w) (h : writeVal w d k l = .ok w') : AllClosed w' := by
  unfold writeVal at h
  cases hd : d k with
  | none => rw [hd] at h; cases h
  | some i =>
    rw [hd] at h
    dsimp only at h
    split at h
    · split at h
      · injection h with h
        subst h
        exact closed_of w _ hc (by simp) (fun i c hi => .inr ⟨i, c, hi, rfl⟩) (fun i c hi => .inr ⟨i, c, hi, rfl⟩) (fun i c hi => .inr ⟨i, c, hi, rfl⟩)
      · cases h
    · cases h

theorem putAttr_closed (w : World Pos) (m : Nat) (o : Mesh Pos) (ho : w.meshes[m]? = some o) (k : String) (v : Val) (hc : AllClosed w) : AllClosed (putAttr w m o k v) := by
  refine closed_of w _ hc (by simp [putAttr]) (fun i c hi => .inr ⟨i, c, hi, rfl⟩) ?_ (fun i c hi => .inr ⟨i, c, hi, rfl⟩)
  intro i c hi
  rcases set_get _ _ _ _ _ hi with h | h
  · exact .inr ⟨i, c, h, rfl⟩
  · subst h
    exact .inl (setDict_closed w _ _ (hc.meshes m o ho) k (by simp [putAttr]))

theorem newCat_closed (w : World Pos) (c : Nat) (n : Option (Arg Nat)) (b : Option (Arg ℚ)) (cols : Cols Pos) (i p : Bool) (s : String) (x : World Pos × Nat)
    (hc : AllClosed w) (h : newCat w c n b cols i p s = .ok x) : AllClosed x.1 := by
  unfold newCat at h
  cases hcc : w.cats[c]? with
  | none => rw [hcc] at h; cases h
  | some o =>
    rw [hcc] at h
    dsimp only at h
    by_cases hn : n.isNone ∨ b.isNone
    · rw [if_pos hn] at h; cases h
    · rw [if_neg hn] at h
      cases h1 : MeshObj.shapeOf n <;> rw [h1] at h <;> dsimp only [Except.bind] at h <;> try cases h
      cases h2 : MeshObj.boxOf _ b <;> rw [h2] at h <;> dsimp only [Except.map] at h <;> try cases h
      refine closed_of w _ hc (alloc_spec _ w.vals o.attrs).2.1 (fun i c hi => .inr ⟨i, c, hi, rfl⟩) ?_ (fun i c hi => .inr ⟨i, c, hi, rfl⟩)
      intro i q hi
      rcases append_get _ _ _ _ hi with hq | hq
      · exact .inr ⟨i, q, hq, rfl⟩
      · subst hq
        exact .inl (fun k r hk => alloc_closed _ w.vals o.attrs (hc.cats c o hcc) k r hk)

theorem closed_step (e : Env Pos) (w w' : World Pos) (op : Op Pos) (hc : AllClosed w) (h : step e w op = .ok w') : AllClosed w' := by
  have keepC : ∀ w2 : World Pos, w2.cats = w.cats → ∀ (i : Nat) (c : Cat Pos), w2.cats[i]? = some c → Closed w2 c.attrs ∨ ∃ (j : Nat) (c' : Cat Pos), w.cats[j]? = some c' ∧ c'.attrs = c.attrs :=
    fun w2 he i c hi => .inr ⟨i, c, by rw [← he]; exact hi, rfl⟩
  have keepM : ∀ w2 : World Pos, w2.meshes = w.meshes → ∀ (i : Nat) (c : Mesh Pos), w2.meshes[i]? = some c → Closed w2 c.attrs ∨ ∃ (j : Nat) (c' : Mesh Pos), w.meshes[j]? = some c' ∧ c'.attrs = c.attrs :=
    fun w2 he i c hi => .inr ⟨i, c, by rw [← he]; exact hi, rfl⟩
  have keepF : ∀ w2 : World Pos, w2.fields = w.fields → ∀ (i : Nat) (c : MeshObj.FieldObj Rf), w2.fields[i]? = some c → Closed w2 c.attrs ∨ ∃ (j : Nat) (c' : MeshObj.FieldObj Rf), w.fields[j]? = some c' ∧ c'.attrs = c.attrs :=
    fun w2 he i c hi => .inr ⟨i, c, by rw [← he]; exact hi, rfl⟩
  have viewed : ∀ (m : Nat) (o : Mesh Pos) (l : List (Act Rf)), w.meshes[m]? = some o → AllClosed { w with meshes := w.meshes ++ [⟨.view m, l, o.attrs, o.nmesh, o.box⟩] } := by
    intro m o l ho
    refine closed_of w _ hc (Nat.le_refl _) (keepC _ rfl) ?_ (keepF _ rfl)
    intro i q hi
    rcases append_get _ _ _ _ hi with hq | hq
    · exact .inr ⟨i, q, hq, rfl⟩
    · subst hq; exact .inr ⟨m, o, ho, rfl⟩
  cases op with
  | catalog n cols =>
    injection h with h; subst h
    refine closed_of w _ hc (Nat.le_refl _) ?_ (keepM _ rfl) (keepF _ rfl)
    intro i c hi
    rcases append_get _ _ _ _ hi with hq | hq
    · exact .inr ⟨i, c, hq, rfl⟩
    · subst hq; exact .inl (fun k r hk => by cases hk)
  | setCol c k x =>
    unfold step at h; dsimp only at h
    cases ho : w.cats[c]? with
    | none => rw [ho] at h; cases h
    | some o =>
      rw [ho] at h; dsimp only at h
      by_cases hl : x.length = o.size
      · rw [if_pos hl] at h; injection h with h; subst h
        refine closed_of w _ hc (Nat.le_refl _) ?_ (keepM _ rfl) (keepF _ rfl)
        intro i q hi
        rcases set_get _ _ _ _ _ hi with hq | hq
        · exact .inr ⟨i, q, hq, rfl⟩
        · subst hq; exact .inr ⟨c, o, ho, rfl⟩
      · rw [if_neg hl] at h; cases h
  | delCol c k =>
    unfold step at h; dsimp only at h
    cases ho : w.cats[c]? with
    | none => rw [ho] at h; cases h
    | some o =>
      rw [ho] at h; dsimp only at h
      by_cases hl : (o.cols k).isSome
      · rw [if_pos hl] at h; injection h with h; subst h
        refine closed_of w _ hc (Nat.le_refl _) ?_ (keepM _ rfl) (keepF _ rfl)
        intro i q hi
        rcases set_get _ _ _ _ _ hi with hq | hq
        · exact .inr ⟨i, q, hq, rfl⟩
        · subst hq; exact .inr ⟨c, o, ho, rfl⟩
      · rw [if_neg hl] at h; cases h
  | setCatAttr c k v =>
    unfold step at h; dsimp only at h
    cases ho : w.cats[c]? with
    | none => rw [ho] at h; cases h
    | some o =>
      rw [ho] at h; dsimp only at h
      injection h with h; subst h
      refine closed_of w _ hc (by simp) ?_ (keepM _ rfl) (keepF _ rfl)
      intro i q hi
      rcases set_get _ _ _ _ _ hi with hq | hq
      · exact .inr ⟨i, q, hq, rfl⟩
      · subst hq; exact .inl (setDict_closed w _ _ (hc.cats c o ho) k (by simp))
  | writeCatAttr c k l =>
    unfold step at h; dsimp only at h
    cases ho : w.cats[c]? with
    | none => rw [ho] at h; cases h
    | some o => rw [ho] at h; exact writeVal_closed _ _ _ _ _ hc h
  | toMesh c a =>
    unfold step at h; dsimp only at h
    cases hx : toMesh e w c a with
    | error => rw [hx] at h; cases h
    | ok x =>
      rw [hx] at h; injection h with h; subst h
      unfold toMesh at hx
      cases ho : w.cats[c]? with
      | none => rw [ho] at hx; cases hx
      | some o =>
        rw [ho] at hx
        dsimp only at hx
        by_cases c1 : (o.col a.weight).isNone ∨ (o.col a.selection).isNone
        · rw [if_pos c1] at hx; cases hx
        · rw [if_neg c1] at hx
          by_cases c2 : a.window.getD a.resampler ∉ e.methods
          · rw [if_pos c2] at hx; cases hx
          · rw [if_neg c2] at hx
            cases h1 : orAttr a.box (attrOf w o.attrs "BoxSize") argBox <;> rw [h1] at hx <;> dsimp only [Except.bind] at hx <;> try cases hx
            cases h2 : orAttr a.nmesh (attrOf w o.attrs "Nmesh") argMesh <;> rw [h2] at hx <;> dsimp only at hx <;> try cases hx
            cases h3 : need o a.weight <;> rw [h3] at hx <;> dsimp only at hx <;> try cases hx
            cases h4 : need o a.selection <;> rw [h4] at hx <;> dsimp only at hx <;> try cases hx
            cases h5 : need o a.value <;> rw [h5] at hx <;> dsimp only at hx <;> try cases hx
            cases h6 : need o a.position <;> rw [h6] at hx <;> dsimp only at hx <;> try cases hx
            exact newCat_closed w _ _ _ _ _ _ _ _ hc hx
  | direct c n b cols i p s =>
    unfold step at h; dsimp only at h
    cases hx : newCat w c n b cols i p s with
    | error => rw [hx] at h; cases h
    | ok x => rw [hx] at h; injection h with h; subst h; exact newCat_closed w c n b cols i p s x hc hx
  | assign m s x =>
    unfold step at h; dsimp only at h
    cases ho : w.meshes[m]? with
    | none => rw [ho] at h; cases h
    | some o =>
      rw [ho] at h; dsimp only at h
      cases hs : o.src with
      | view b => rw [hs] at h; injection h with h; subst h; exact hc
      | cat c cols =>
        rw [hs] at h; injection h with h; subst h
        refine closed_of w _ hc (Nat.le_refl _) (keepC _ rfl) ?_ (keepF _ rfl)
        intro i q hi
        rcases set_get _ _ _ _ _ hi with hq | hq
        · exact .inr ⟨i, q, hq, rfl⟩
        · subst hq; exact .inr ⟨m, o, ho, rfl⟩
  | set m s v =>
    unfold step at h; dsimp only at h
    cases ho : w.meshes[m]? with
    | none => rw [ho] at h; cases h
    | some o =>
      rw [ho] at h; dsimp only at h
      cases hs : o.src with
      | view b => rw [hs] at h; injection h with h; subst h; exact hc
      | cat c cols => rw [hs] at h; injection h with h; subst h; exact putAttr_closed w m o ho _ _ hc
  | setResampler m name =>
    unfold step at h; dsimp only at h
    cases ho : w.meshes[m]? with
    | none => rw [ho] at h; cases h
    | some o =>
      rw [ho] at h; dsimp only at h
      cases hs : o.src with
      | view b => rw [hs] at h; injection h with h; subst h; exact hc
      | cat c cols =>
        rw [hs] at h; dsimp only at h
        by_cases hm : name ∈ e.methods
        · rw [if_pos hm] at h; injection h with h; subst h; exact putAttr_closed w m o ho _ _ hc
        · rw [if_neg hm] at h; cases h
  | setAttr m k v =>
    unfold step at h; dsimp only at h
    cases ho : w.meshes[m]? with
    | none => rw [ho] at h; cases h
    | some o => rw [ho] at h; injection h with h; subst h; exact putAttr_closed w m o ho _ _ hc
  | writeAttr m k l =>
    unfold step at h; dsimp only at h
    cases ho : w.meshes[m]? with
    | none => rw [ho] at h; cases h
    | some o => rw [ho] at h; exact writeVal_closed _ _ _ _ _ hc h
  | view m =>
    unfold step view at h; dsimp only at h
    cases ho : w.meshes[m]? with
    | none => rw [ho] at h; cases h
    | some o =>
      rw [ho] at h; dsimp only at h
      cases ha : actions e w o with
      | error => rw [ha] at h; cases h
      | ok l => rw [ha] at h; injection h with h; subst h; exact viewed m o l ho
  | apply m func kind mode =>
    unfold step apply at h; dsimp only at h
    cases hk : MeshObj.checkAct (func.resolve mode kind).1 (func.resolve mode kind).2.1 (func.resolve mode kind).2.2 with
    | error => rw [hk] at h; cases h
    | ok a =>
      rw [hk] at h; dsimp only [Except.bind] at h
      cases ho : w.meshes[m]? with
      | none => rw [ho] at h; cases h
      | some o =>
        rw [ho] at h; dsimp only at h
        cases ha : actions e w o with
        | error => rw [ha] at h; cases h
        | ok l => rw [ha] at h; injection h with h; subst h; exact viewed m o _ ho
  | compute m mode nm =>
    unfold step compute at h; dsimp only at h
    cases hd : computeData e w m mode nm with
    | error => rw [hd] at h; cases h
    | ok d =>
      rw [hd] at h; dsimp only [Except.bind] at h
      cases ho : w.meshes[m]? with
      | none => rw [ho] at h; cases h
      | some o =>
        rw [ho] at h; dsimp only [Except.map] at h; injection h with h; subst h
        obtain ⟨i1, i2, i3⟩ := alloc_spec d.2.1 w.vals (fun _ => none)
        refine closed_of w _ hc i2 (keepC _ rfl) (keepM _ rfl) ?_
        intro i q hi
        rcases append_get _ _ _ _ hi with hq | hq
        · exact .inr ⟨i, q, hq, rfl⟩
        · subst hq
          left
          intro k r hk
          unfold MeshObj.Dict.update at hk
          dsimp only at hk
          cases hok : o.attrs k with
          | some r' => rw [hok] at hk; injection hk with hk; subst hk; exact Nat.lt_of_lt_of_le (hc.meshes m o ho k _ hok) i2
          | none => rw [hok] at hk; exact alloc_closed _ w.vals (fun _ => none) (fun _ _ hh => by cases hh) k r hk
  | paintInto m f n =>
    have fresh : ∀ (l : List (String × Val)) (w2 : World Pos), w2.vals = (MeshObj.alloc w.vals (fun _ => none) l).1 → Closed w2 (MeshObj.alloc w.vals (fun _ => none) l).2 := by
      intro l w2 hv k r hk
      rw [hv]
      exact alloc_closed _ w.vals (fun _ => none) (fun _ _ hh => by cases hh) k r hk
    unfold step paintInto at h
    dsimp only at h
    cases ho : w.meshes[m]? with
    | none => rw [ho] at h; cases h
    | some o =>
      cases hf : w.fields[f]? with
      | none => rw [ho, hf] at h; cases h
      | some x =>
        rw [ho, hf] at h
        dsimp only at h
        cases hs : o.src with
        | view b =>
          rw [hs] at h
          dsimp only at h
          cases hr : toReal e w w.meshes.length m (fun _ => 0) true with
          | error => rw [hr] at h; cases h
          | ok y =>
            rw [hr] at h
            injection h with h
            subst h
            refine closed_of w _ hc (alloc_spec _ w.vals _).2.1 (keepC _ rfl) (keepM _ rfl) ?_
            intro i q hi
            rcases append_get _ _ _ _ hi with hq | hq
            · exact .inr ⟨i, q, hq, rfl⟩
            · subst hq; exact .inl (fresh _ _ rfl)
        | cat c cols =>
          rw [hs] at h
          cases hd : x.data with
          | re old =>
            rw [hd] at h
            dsimp only at h
            cases hw : windowOf e w o.attrs with
            | error => rw [hw] at h; cases h
            | ok s =>
              rw [hw] at h
              dsimp only [Except.bind] at h
              by_cases hn : x.nmesh ≠ o.nmesh
              · rw [if_pos hn] at h; cases h
              · rw [if_neg hn] at h
                cases hp : paintCat e w o cols old n with
                | error => rw [hp] at h; cases h
                | ok y =>
                  rw [hp] at h
                  injection h with h
                  subst h
                  refine closed_of w _ hc (alloc_spec _ w.vals _).2.1 (keepC _ rfl) (keepM _ rfl) ?_
                  intro i q hi
                  rcases set_get _ _ _ _ _ hi with hq | hq
                  · exact .inr ⟨i, q, hq, rfl⟩
                  · subst hq; exact .inl (fresh _ _ rfl)
          | co y =>
            rw [hd] at h
            dsimp only at h
            cases hw : windowOf e w o.attrs <;> rw [hw] at h <;> cases h
          | un y =>
            rw [hd] at h
            dsimp only at h
            cases hw : windowOf e w o.attrs <;> rw [hw] at h <;> cases h
  | writeFieldAttr f k l =>
    unfold step at h; dsimp only at h
    cases ho : w.fields[f]? with
    | none => rw [ho] at h; cases h
    | some o => rw [ho] at h; exact writeVal_closed _ _ _ _ _ hc h

/-- In every program all references exist and views come after their bases. -/
theorem program_ok (e : Env Pos) (w : World Pos) (hc : AllClosed w) (hw : Wf w) (ops : List (Op Pos)) : AllClosed (run e w ops) ∧ Wf (run e w ops) := by
  refine ⟨?_, wf_run e w hw ops⟩
  induction ops generalizing w with
  | nil => exact hc
  | cons op ops ih =>
    unfold run
    cases h : step e w op with
    | error => exact ih w hc hw
    | ok w' => exact ih w' (closed_step e w w' op hc h) (wf_effect 0 _ w w' hw (step_effect e 0 w w' op h))

/-! ## The catalog after the mesh is made -/

/-- A mesh made by `to_mesh` keeps the columns of that moment: whatever is done to the catalog, it gives the same field until its own columns or settings are assigned. -/
theorem toMesh_keeps (e : Env Pos) (w : World Pos) (hw : Wf w) (c : Nat) (a : MeshArgs) (o : Cat Pos) (ho : w.cats[c]? = some o) (hcl : Closed w o.attrs) (w1 : World Pos) (m : Nat)
    (h : toMesh e w c a = .ok (w1, m)) (ops : List (Op Pos)) (hops : ∀ op ∈ ops, ¬ touches m op) (mode : Option Mode) (nm : Option (Arg Nat)) :
    computeData e (run e w1 ops) m mode nm = computeData e w1 m mode nm := by
  obtain ⟨hcol, hmem, ⟨n, b⟩, hsz⟩ := (toMesh_ok_iff e w c a o ho).mp ⟨_, h⟩
  simp only [List.mem_cons, List.not_mem_nil, or_false, forall_eq_or_imp, forall_eq] at hcol
  obtain ⟨h1, h2, h3, h4⟩ := hcol
  obtain ⟨x1, e1⟩ := Option.isSome_iff_exists.mp h1
  obtain ⟨x2, e2⟩ := Option.isSome_iff_exists.mp h2
  obtain ⟨x3, e3⟩ := Option.isSome_iff_exists.mp h3
  obtain ⟨x4, e4⟩ := Option.isSome_iff_exists.mp h4
  obtain ⟨w2, q, g1, g2, g3, g4, g5, g6, g7, g8, g9, g10, g11, g12, g13⟩ := toMesh_spec e w c a o ho hcl x1 x2 x3 x4 e1 e2 e3 e4 hmem n b hsz
  rw [h] at g1
  injection g1 with g1
  injection g1 with g1 gm
  subst g1
  have hq : w1.meshes[m]? = some q := by rw [g2, gm]; simp
  refine compute_stable e w1 ?_ m m (.here m c q _ hq g6) q hq ?_ ops hops mode nm
  · exact wf_effect 0 True w w1 hw (toMesh_effect e 0 True w c a (w1, m) h)
  · intro k hk
    simp only [settingNames, List.mem_cons, List.not_mem_nil, or_false] at hk
    rcases hk with hk | hk | hk <;> subst hk
    · exact ⟨_, g10, fun l hl => by cases hl⟩
    · exact ⟨_, g11, fun l hl => by cases hl⟩
    · exact ⟨_, g12, fun l hl => by cases hl⟩

/-- The same for any program: what is done before, and what is done after without assigning to the mesh. -/
theorem program_keeps (e : Env Pos) (before after : List (Op Pos)) (c : Nat) (a : MeshArgs) (w1 : World Pos) (m : Nat)
    (h : toMesh e (run e ⟨[], [], [], []⟩ before) c a = .ok (w1, m)) (hops : ∀ op ∈ after, ¬ touches m op) (mode : Option Mode) (nm : Option (Arg Nat)) :
    computeData e (run e w1 after) m mode nm = computeData e w1 m mode nm := by
  obtain ⟨hc, hw⟩ := program_ok e (⟨[], [], [], []⟩ : World Pos) ⟨fun i c h => by simp at h, fun i c h => by simp at h, fun i c h => by simp at h⟩
    (fun i c h => by simp at h) before
  cases ho : (run e ⟨[], [], [], []⟩ before).cats[c]? with
  | none =>
    unfold toMesh at h
    rw [ho] at h
    cases h
  | some o => exact toMesh_keeps e _ hw c a o ho (hc.cats c o ho) w1 m h after hops mode nm

/-! ## Cases -/

/-- Four cells on a line. Interlacing puts half of the mass in the next cell; the compensation doubles or triples. -/
def exEnv : Env Nat where
  pm := ⟨fun x k => ⟨x (k.headD 0), 0⟩, fun y c => (y [c]).re, fun _ _ x => x, fun _ _ y => y, fun _ _ _ _ _ _ _ => ⟨0, 0⟩, fun _ _ _ => 0, fun a => a, fun _ a => a,
    fun x _ => x, true⟩
  methods := ["cic", "CIC", "tsc", "nearest"]
  lower := fun s => if s = "CIC" then "cic" else s
  dep := fun s i p c => if i then (if c = p ∨ c = (p + 1) % 4 then 1 / 2 else 0) else if s = "tsc" then 1 / 4 else if c = p then 1 else 0
  comp := fun i _ y k => if i then ⟨2 * (y k).re, 0⟩ else ⟨3 * (y k).re, 0⟩
  chunk := 3

def nothing : World Nat := ⟨[], [], [], []⟩

/-- Two objects, of weight 3 and 1. -/
def exCols : String → Option (Col Nat) := fun k => if k = "Position" then some (.pos [0, 2]) else if k = "Weight" then some (.num [3, 1]) else none

def exArgs : MeshArgs := { nmesh := some (.many [4]), box := some (.one 8) }

/-- The four cells of the field that `compute` gives. -/
def cells (e : Env Nat) (w : World Nat) (m : Nat) : Except Err (List ℚ) :=
  (computeData e w m (some .real) none).map fun f => match f.1 with
    | .re x => [x 0, x 1, x 2, x 3]
    | _ => []

/-- An attribute of the last field. -/
def lastAttr (w : World Nat) (k : String) : Option Val := w.fields.getLast?.bind fun f => attrOf w f.attrs k

/-- Case of `compute_spec` and `toMesh_keeps`: the field, also after the catalog has changed. -/
theorem field_case : cells exEnv (run exEnv nothing [.catalog 2 exCols, .toMesh 0 exArgs]) 0 = .ok [3, 0, 1, 0] ∧
    cells exEnv (run exEnv nothing [.catalog 2 exCols, .toMesh 0 exArgs, .setCol 0 "Weight" (.num [1, 1]), .setCol 0 "Selection" (.flag [false, true])]) 0 = .ok [3, 0, 1, 0] ∧
    cells exEnv (run exEnv nothing [.catalog 2 exCols, .toMesh 0 exArgs, .setCol 0 "Weight" (.num [1, 1]), .toMesh 0 exArgs]) 1 = .ok [2, 0, 2, 0] ∧
    cells exEnv (run exEnv nothing [.catalog 2 exCols, .toMesh 0 exArgs, .assign 0 .selection (some (.flag [false, true]))]) 0 = .ok [0, 0, 4, 0] := by
  refine ⟨?_, ?_, ?_, ?_⟩ <;> decide +kernel

/-- The settings of a `CatalogMesh` can be changed at any time, and its own compensation goes with them. -/
theorem settings_case : cells exEnv (run exEnv nothing [.catalog 2 exCols, .toMesh 0 { exArgs with compensated := true }]) 0 = .ok [9, 0, 3, 0] ∧
    cells exEnv (run exEnv nothing [.catalog 2 exCols, .toMesh 0 { exArgs with compensated := true }, .set 0 .interlaced (.flag true)]) 0 = .ok [3, 3, 1, 1] ∧
    cells exEnv (run exEnv nothing [.catalog 2 exCols, .toMesh 0 { exArgs with compensated := true }, .set 0 .interlaced (.flag true), .set 0 .compensated (.flag false)]) 0 =
      .ok [3 / 2, 3 / 2, 1 / 2, 1 / 2] := by
  refine ⟨?_, ?_, ?_⟩ <;> decide +kernel

/-- A view keeps the compensation of the time it was made, but is painted with the settings of now: interlaced, with the compensation for no interlacing. -/
theorem view_mixed : cells exEnv (run exEnv nothing [.catalog 2 exCols, .toMesh 0 { exArgs with compensated := true }, .view 0, .set 0 .interlaced (.flag true)]) 1 =
      .ok [9 / 2, 9 / 2, 3 / 2, 3 / 2] ∧
    cells exEnv (run exEnv nothing [.catalog 2 exCols, .toMesh 0 { exArgs with compensated := true }, .set 0 .interlaced (.flag true), .view 0]) 1 = .ok [3, 3, 1, 1] ∧
    cells exEnv (run exEnv nothing [.catalog 2 exCols, .toMesh 0 { exArgs with compensated := true }, .view 0, .set 0 .compensated (.flag false)]) 1 = .ok [9, 0, 3, 0] := by
  refine ⟨?_, ?_, ?_⟩ <;> decide +kernel

/-- Settings and columns assigned to a view are accepted and do nothing; so does changing its attributes. -/
theorem view_ignored : cells exEnv (run exEnv nothing [.catalog 2 exCols, .toMesh 0 { exArgs with compensated := true }, .view 0, .set 1 .compensated (.flag false),
      .setResampler 1 "unknown", .assign 1 .weight none, .setAttr 1 "interlaced" (.flag true)]) 1 = .ok [9, 0, 3, 0] ∧
    (step exEnv (run exEnv nothing [.catalog 2 exCols, .toMesh 0 exArgs, .view 0]) (.setResampler 1 "unknown")).isOk = true := by
  refine ⟨?_, ?_⟩ <;> decide +kernel

/-- A window accepted by `to_mesh` may have no compensation: upper case is kept as it is given, and fails later; the same name assigned works. -/
theorem window_case : cells exEnv (run exEnv nothing [.catalog 2 exCols, .toMesh 0 { exArgs with compensated := true, resampler := "CIC" }]) 0 = .error .valueError ∧
    cells exEnv (run exEnv nothing [.catalog 2 exCols, .toMesh 0 { exArgs with resampler := "CIC" }]) 0 = .ok [3, 0, 1, 0] ∧
    cells exEnv (run exEnv nothing [.catalog 2 exCols, .toMesh 0 { exArgs with compensated := true }, .setResampler 0 "CIC"]) 0 = .ok [9, 0, 3, 0] ∧
    cells exEnv (run exEnv nothing [.catalog 2 exCols, .toMesh 0 { exArgs with compensated := true, resampler := "nearest" }]) 0 = .error .valueError := by
  refine ⟨?_, ?_, ?_, ?_⟩ <;> decide +kernel

/-- Attributes of the catalog with the names of the numbers found while painting hide them. -/
theorem stale_stats : lastAttr (run exEnv nothing [.catalog 2 exCols, .toMesh 0 exArgs, .compute 0 (some .real) none]) "N" = some (.num 2) ∧
    lastAttr (run exEnv nothing [.catalog 2 exCols, .toMesh 0 exArgs, .compute 0 (some .real) none]) "shotnoise" = some (.num 5) ∧
    lastAttr (run exEnv nothing [.catalog 2 exCols, .setCatAttr 0 "N" (.num 1000), .setCatAttr 0 "shotnoise" (.num 0), .toMesh 0 exArgs, .compute 0 (some .real) none]) "N" =
      some (.num 1000) ∧
    lastAttr (run exEnv nothing [.catalog 2 exCols, .setCatAttr 0 "N" (.num 1000), .setCatAttr 0 "shotnoise" (.num 0), .toMesh 0 exArgs, .compute 0 (some .real) none]) "shotnoise" =
      some (.num 0) := by
  refine ⟨?_, ?_, ?_, ?_⟩ <;> decide +kernel

/-- The real values of the last field. -/
def lastCells (w : World Nat) : Option (List ℚ) := w.fields.getLast?.bind fun f => match f.data with
  | .re x => some [x 0, x 1, x 2, x 3]
  | _ => none

/-- Painting with normalisation into a field that holds something scales that too; a view does not paint into the field it is given. -/
theorem into_case : lastCells (run exEnv nothing [.catalog 2 exCols, .toMesh 0 exArgs, .compute 0 (some .real) none, .paintInto 0 0 false]) = some [6, 0, 2, 0] ∧
    lastCells (run exEnv nothing [.catalog 2 exCols, .toMesh 0 exArgs, .assign 0 .weight (some (.num [6, 2])), .compute 0 (some .real) none, .paintInto 0 0 true]) =
      some [9 / 2, 0, 3 / 2, 0] ∧
    (run exEnv nothing [.catalog 2 exCols, .toMesh 0 exArgs, .compute 0 (some .real) none, .view 0, .paintInto 1 0 false]).fields.length = 2 ∧
    lastCells (run exEnv nothing [.catalog 2 exCols, .toMesh 0 exArgs, .compute 0 (some .real) none, .view 0, .paintInto 1 0 false]) = some [3, 0, 1, 0] := by
  refine ⟨?_, ?_, ?_, ?_⟩ <;> decide +kernel

/-- C127: `Nmesh` of a catalog: no size is negative, and each is rounded down. -/
theorem argMesh_iff (l : List ℚ) (ns : List Nat) :
    argMesh (.arr l) = .ok (.many ns) ↔ ns.length = l.length ∧ ∀ (i : Nat) (q : ℚ), l[i]? = some q → 0 ≤ q ∧ ∃ n : Nat, ns[i]? = some n ∧ (n : ℚ) ≤ q ∧ q < n + 1 := by
  have key : ∀ q : ℚ, 0 ≤ q → ∀ n : Nat, (q.floor.toNat = n ↔ (n : ℚ) ≤ q ∧ q < n + 1) := by
    intro q hq n
    have : q.floor = ⌊q⌋ := rfl
    rw [this, ← Nat.floor_eq_iff hq]
    rfl
  unfold argMesh
  by_cases h : l.any fun q => q < 0
  · simp only [h, if_true]
    constructor
    · intro hh; cases hh
    · rintro ⟨_, hh⟩
      obtain ⟨q, hq, hneg⟩ := List.any_eq_true.mp h
      obtain ⟨i, hi⟩ := List.getElem?_of_mem hq
      have := (hh i q hi).1
      simp at hneg
      linarith
  · have hn : ∀ q ∈ l, 0 ≤ q := by
      intro q hq
      by_contra hc
      exact h (List.any_eq_true.mpr ⟨q, hq, by simpa using hc⟩)
    simp only [h]
    constructor
    · intro hh
      simp only [Bool.false_eq_true, if_false, Except.ok.injEq, MeshObj.Arg.many.injEq] at hh
      subst hh
      refine ⟨by simp, fun i q hq => ⟨hn q (List.mem_of_getElem? hq), q.floor.toNat, by simp [hq], (key q (hn q (List.mem_of_getElem? hq)) _).mp rfl⟩⟩
    · rintro ⟨h1, h2⟩
      simp only [Bool.false_eq_true, if_false, Except.ok.injEq, MeshObj.Arg.many.injEq]
      apply List.ext_getElem?
      intro i
      rw [List.getElem?_map]
      cases hq : l[i]? with
      | none =>
        rw [List.getElem?_eq_none_iff] at hq
        symm
        simp only [Option.map_none, List.getElem?_eq_none_iff]
        omega
      | some q =>
        obtain ⟨g1, n, g2, g3⟩ := h2 i q hq
        rw [g2, Option.map_some, (key q g1 n).mpr g3]

/-- C127: a keyword is taken as it is, whatever the attributes of the catalog are; without one the attribute counts, and without both there is an error. -/
theorem keyword_wins {α : Type} (given : Option α) (v : Option Val) (conv : Val → Except Err α) (x : α) :
    orAttr given v conv = .ok x ↔ given = some x ∨ given = none ∧ ∃ y, v = some y ∧ conv y = .ok x := by
  unfold orAttr
  cases given <;> cases v <;> simp

/-- C127: flags as numbers: their sum is the number of those that are set. -/
theorem flags_sum {Pos : Type} (l : List Bool) : ∃ q, (Col.flag l : Col Pos).nums = some q ∧ q.length = l.length ∧ q.sum = (l.count true : ℚ) ∧ ∀ x ∈ q, x = 0 ∨ x = 1 := by
  refine ⟨_, rfl, by simp, ?_, ?_⟩
  · induction l with
    | nil => rfl
    | cons b l ih => cases b <;> simp [ih]; ring
  · intro x hx
    obtain ⟨b, _, rfl⟩ := List.mem_map.mp hx
    cases b <;> simp

/-- C127: the settings that count as false. -/
theorem truth_false (v : Val) : truth v = .ok false ↔ v = .num 0 ∨ v = .flag false ∨ v = .text "" ∨ v = .arr [] ∨ v = .arr [0] := by
  cases v with
  | arr l => rcases l with _ | ⟨q, _ | ⟨r, l⟩⟩ <;> simp [truth]
  | _ => simp [truth]

/-- C127: `apply` gives a view with one action more, the last. -/
theorem apply_last {Pos : Type} (e : Env Pos) (w w' : World Pos) (m k : Nat) (func : Func Rf) (kind mode : Option String) (h : apply e w m func kind mode = .ok (w', k)) :
    ∃ o l a, w.meshes[m]? = some o ∧ actions e w o = .ok l ∧ w'.meshes[k]? = some ⟨.view m, l ++ [a], o.attrs, o.nmesh, o.box⟩ ∧ ∀ i < w.meshes.length, w'.meshes[i]? = w.meshes[i]? := by
  unfold apply at h
  dsimp only at h
  cases hc : MeshObj.checkAct (func.resolve mode kind).1 (func.resolve mode kind).2.1 (func.resolve mode kind).2.2 with
  | error x => rw [hc] at h; cases h
  | ok a =>
    rw [hc] at h
    dsimp only [Except.bind] at h
    cases ho : w.meshes[m]? with
    | none => rw [ho] at h; cases h
    | some o =>
      rw [ho] at h
      dsimp only at h
      cases hl : actions e w o with
      | error x => rw [hl] at h; cases h
      | ok l =>
        rw [hl] at h
        simp only [Except.map, Except.ok.injEq, Prod.mk.injEq] at h
        obtain ⟨rfl, rfl⟩ := h
        exact ⟨o, l, a, rfl, hl, by simp, fun i hi => by rw [List.getElem?_append_left hi]⟩

/-- C127: the field of a view does not depend on `out` and `normalize`. -/
theorem view_ignores {Pos : Type} (e : Env Pos) (w : World Pos) (fuel m b : Nat) (o : Mesh Pos) (ho : w.meshes[m]? = some o) (hv : o.src = .view b) (out out' : Rf) (z z' : Bool) :
    toReal e w (fuel + 1) m out z = toReal e w (fuel + 1) m out' z' := by
  simp only [toReal, ho, hv]

end NBK.CatMesh
