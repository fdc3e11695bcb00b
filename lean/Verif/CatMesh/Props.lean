import Verif.CatMesh.RowProps

/-!
# `to_mesh`, `compute`, views and settings of `CatalogMesh` (C127)
-/
set_option linter.unusedSimpArgs false
namespace NBK.CatMesh
open NBK.MeshObj (Fld Fn Act Func Val Dict Arg Mode Err CF)
variable {Pos : Type}

/-! ## Meaning of a mesh -/

/-- The mesh at the end of a chain of views. -/
inductive Root (w : World Pos) : Nat → Nat → Prop
  | here (m c : Nat) (o : Mesh Pos) (x : Cols Pos) (h : w.meshes[m]? = some o) (hs : o.src = .cat c x) : Root w m m
  | there (m b r : Nat) (o : Mesh Pos) (h : w.meshes[m]? = some o) (hs : o.src = .view b) (hr : Root w b r) : Root w m r

/-- Views come after what they are views of, and have its mesh and box. -/
def Wf (w : World Pos) : Prop := ∀ (m : Nat) (o : Mesh Pos), w.meshes[m]? = some o → ∀ b : Nat, o.src = .view b →
  b < m ∧ ∃ p : Mesh Pos, w.meshes[b]? = some p ∧ p.nmesh = o.nmesh ∧ p.box = o.box

/-- The settings of a `CatalogMesh`, read from its attributes. -/
structure Settings (w : World Pos) (o : Mesh Pos) (inter comp : Bool) (win : String) : Prop where
  inter : flagOf w o.attrs "interlaced" = .ok inter
  comp : flagOf w o.attrs "compensated" = .ok comp
  win : attrOf w o.attrs "resampler" = some (.text win)

theorem settings_of (w : World Pos) (o : Mesh Pos) (inter comp : Bool) (win : String) (h1 : attrOf w o.attrs "interlaced" = some (.flag inter))
    (h2 : attrOf w o.attrs "compensated" = some (.flag comp)) (h3 : attrOf w o.attrs "resampler" = some (.text win)) : Settings w o inter comp win :=
  ⟨by unfold flagOf; rw [h1]; rfl, by unfold flagOf; rw [h2]; rfl, h3⟩

/-- The compensation for a window. -/
def compensation (e : Env Pos) (inter : Bool) (win : String) : Act Rf := ⟨.complex, "circular", ⟨fun _ x => x, fun _ => e.comp inter win⟩⟩

/-- One plus the contrast: the mass in a cell over the mean weight per cell; one everywhere without any weight. -/
def contrast (e : Env Pos) (win : String) (inter : Bool) (rows : List (Row Pos)) (ncells : Nat) : Rf := fun c =>
  if 0 < (rows.map Row.weight).sum then (rows.map fun r => r.weight * r.value * e.dep win inter r.pos c).sum * ncells / (rows.map Row.weight).sum else 1

theorem finish_contrast (e : Env Pos) (win : String) (inter : Bool) (rows : List (Row Pos)) (ncells : Nat) (hn : 0 < ncells) :
    finish (fun _ => 0) (painted e win inter rows) rows ncells true = contrast e win inter rows ncells := by
  funext c
  have hq : (0 : ℚ) < ncells := by exact_mod_cast hn
  unfold finish contrast painted
  dsimp only
  rw [if_pos rfl]
  by_cases h : 0 < (rows.map Row.weight).sum
  · rw [if_pos (div_pos h hq), if_pos h, zero_add, div_div_eq_mul_div]
  · rw [if_neg (fun hd => h (by rw [div_eq_mul_inv] at hd; exact pos_of_mul_pos_left hd (le_of_lt (inv_pos.mpr hq)))), if_neg h]

theorem paintCat_eq (e : Env Pos) (w : World Pos) (o : Mesh Pos) (x : Cols Pos) (inter comp : Bool) (win : String) (hs : Settings w o inter comp win)
    (hwin : win ∈ e.methods) (rows : List (Row Pos)) (hr : rowsOf e.chunk x = .ok rows) (out : Rf) (normalize : Bool) :
    paintCat e w o x out normalize = .ok (finish out (painted e win inter rows) rows o.nmesh.prod normalize, stats rows o.nmesh.prod o.box.prod) := by
  unfold paintCat windowOf nameOf
  rw [hs.win]
  dsimp only [Except.bind]
  rw [if_pos hwin]
  dsimp only
  rw [hs.inter, hr]
  rfl

theorem root_le {w : World Pos} (hw : Wf w) {m r : Nat} (h : Root w m r) : r ≤ m := by
  induction h with
  | here => exact Nat.le_refl _
  | there m b r o h hs _ ih => exact Nat.le_trans ih (Nat.le_of_lt (hw m o h b hs).1)

theorem root_mesh {w : World Pos} (hw : Wf w) {m r : Nat} (h : Root w m r) : ∃ o p : Mesh Pos, ∃ c x, w.meshes[m]? = some o ∧ w.meshes[r]? = some p ∧
    p.src = .cat c x ∧ p.nmesh = o.nmesh ∧ p.box = o.box := by
  induction h with
  | here m c o x h hs => exact ⟨o, o, c, x, h, h, hs, rfl, rfl⟩
  | there m b r o h hs _ ih =>
    obtain ⟨o', p, c, x, h1, h2, h3, h4, h5⟩ := ih
    obtain ⟨_, q, hq, h6, h7⟩ := hw m o h b hs
    rw [h1] at hq
    injection hq with hq
    subst hq
    exact ⟨o, p, c, x, h, h2, h3, h4.trans h6, h5.trans h7⟩

/-- A chain of views paints what its root paints, always normalised. -/
theorem toReal_root (e : Env Pos) (w : World Pos) (hw : Wf w) (m r : Nat) (h : Root w m r) (o : Mesh Pos) (c : Nat) (x : Cols Pos) (ho : w.meshes[r]? = some o)
    (hx : o.src = .cat c x) (fuel : Nat) (hf : m < fuel) :
    toReal e w fuel m (fun _ => 0) true = (paintCat e w o x (fun _ => 0) true).map fun r => (r.1, r.2, o.nmesh, o.box) := by
  induction h generalizing fuel with
  | here m c' o' x' h hs =>
    cases fuel with
    | zero => omega
    | succ fuel =>
      rw [ho] at h
      injection h with h
      subst h
      unfold toReal
      rw [ho]
      dsimp only
      rw [hx]
  | there m b r o' h hs hr ih =>
    cases fuel with
    | zero => omega
    | succ fuel =>
      unfold toReal
      rw [h]
      dsimp only
      rw [hs]
      exact ih ho fuel (by have := (hw m o' h b hs).1; omega)

theorem convert_convert (e : MeshObj.Env Rf Unit Unit) (m : Mode) (x : Fld Rf) : MeshObj.convert e m (MeshObj.convert e m x) = MeshObj.convert e m x := by
  cases m <;> cases x <;> rfl

theorem head_convert (e : MeshObj.Env Rf Unit Unit) (mode : Mode) (l : List (Act Rf)) (x : Fld Rf) :
    MeshObj.convert e mode (l.foldl (Act.run e) (MeshObj.convert e ((l.head?.map Act.mode).getD mode) x)) = MeshObj.convert e mode (l.foldl (Act.run e) x) := by
  cases l with
  | nil => exact convert_convert e mode x
  | cons a l =>
    simp only [List.head?_cons, Option.map_some, Option.getD_some, List.foldl_cons]
    congr 2
    unfold Act.run
    rw [convert_convert]

theorem actions_eq (e : Env Pos) (w : World Pos) (o : Mesh Pos) (c : Nat) (x : Cols Pos) (hx : o.src = .cat c x) (inter comp : Bool) (win : String)
    (hs : Settings w o inter comp win) : actions e w o =
      if comp then (if win = "cic" ∨ win = "tsc" ∨ win = "pcs" then .ok (compensation e inter win :: o.actions) else .error .valueError) else .ok o.actions := by
  unfold actions
  rw [hx]
  dsimp only
  rw [hs.comp]
  dsimp only [Except.bind]
  cases comp with
  | false => rfl
  | true =>
    rw [if_pos rfl, if_pos rfl]
    have hi := hs.inter
    unfold flagOf at hi
    cases ha : attrOf w o.attrs "interlaced" with
    | none => rw [ha] at hi; cases hi
    | some v =>
      rw [ha] at hi
      dsimp only at hi
      unfold compAct
      rw [ha, hs.win]
      dsimp only
      rw [hi]
      dsimp only [Except.bind]
      by_cases hc : win = "cic" ∨ win = "tsc" ∨ win = "pcs"
      · rw [if_pos hc, if_pos hc]; rfl
      · rw [if_neg hc, if_neg hc]; rfl

theorem computeData_eq (e : Env Pos) (w : World Pos) (hw : Wf w) (m r : Nat) (h : Root w m r) (om o : Mesh Pos) (c : Nat) (x : Cols Pos) (hm : w.meshes[m]? = some om)
    (ho : w.meshes[r]? = some o) (hx : o.src = .cat c x) (l : List (Act Rf)) (hl : actions e w om = .ok l)
    (inter comp : Bool) (win : String) (hs : Settings w o inter comp win) (hwin : win ∈ e.methods) (rows : List (Row Pos)) (hr : rowsOf e.chunk x = .ok rows)
    (hn : 0 < o.nmesh.prod) (mode : Mode) :
    computeData e w m (some mode) none =
      .ok (MeshObj.convert e.pm mode (l.foldl (Act.run e.pm) (.re (contrast e win inter rows o.nmesh.prod))), stats rows o.nmesh.prod o.box.prod, o.nmesh, o.box) := by
  have hlt : m < w.meshes.length := (List.getElem?_eq_some_iff.mp hm).1
  obtain ⟨om', o', _, _, h1, h2, _, h4, h5⟩ := root_mesh hw h
  rw [hm] at h1
  injection h1 with h1
  subst h1
  rw [ho] at h2
  injection h2 with h2
  subst h2
  unfold computeData toField
  dsimp only
  rw [hm]
  dsimp only
  rw [hl]
  dsimp only [Except.bind]
  rw [toReal_root e w hw m r h o c x ho hx _ hlt, paintCat_eq e w o x inter comp win hs hwin rows hr, finish_contrast e win inter rows _ hn]
  dsimp only [Except.map, Except.bind, MeshObj.reshape]
  rw [if_neg (fun hne => hne rfl), head_convert]

/-- `compute` of a `CatalogMesh`: the selected objects painted with the window and interlacing of now, divided by the mean; then the compensation for the same
window and interlacing if wanted; then the actions of the mesh. -/
theorem compute_spec (e : Env Pos) (hc : 0 < e.chunk) (w : World Pos) (hw : Wf w) (m : Nat) (o : Mesh Pos) (ho : w.meshes[m]? = some o) (c : Nat)
    (p : List Pos) (cw cv : Option (List ℚ)) (cs : Option (List Bool)) (hx : o.src = .cat c (colsOf p cw cv cs))
    (h1 : ∀ l, cw = some l → l.length = p.length) (h2 : ∀ l, cv = some l → l.length = p.length) (h3 : ∀ l, cs = some l → l.length = p.length)
    (inter comp : Bool) (win : String) (hs : Settings w o inter comp win) (hwin : win ∈ e.methods) (hn : 0 < o.nmesh.prod) (mode : Mode) :
    computeData e w m (some mode) none =
      (if comp then (if win = "cic" ∨ win = "tsc" ∨ win = "pcs" then (.ok (compensation e inter win :: o.actions) : Except Err (List (Act Rf)))
        else .error .valueError) else .ok o.actions).map fun l =>
        (MeshObj.convert e.pm mode (l.foldl (Act.run e.pm) (.re (contrast e win inter (objects p (ones p.length cw) (ones p.length cv) (trues p.length cs)) o.nmesh.prod))),
          stats (objects p (ones p.length cw) (ones p.length cv) (trues p.length cs)) o.nmesh.prod o.box.prod, o.nmesh, o.box) := by
  have hr := rows_spec e.chunk hc p cw cv cs h1 h2 h3
  have ha := actions_eq e w o c _ hx inter comp win hs
  cases hl : actions e w o with
  | ok l =>
    rw [← ha, hl, computeData_eq e w hw m m (.here m c o _ ho hx) o o c _ ho ho hx l hl inter comp win hs hwin _ hr hn mode]
    rfl
  | error err =>
    rw [← ha, hl]
    unfold computeData
    dsimp only
    rw [ho]
    dsimp only
    rw [hl]
    rfl

/-- `compute` of a view: the painting follows the settings that the root has now; the actions, compensation included, are those of the time when the view was made. -/
theorem compute_view (e : Env Pos) (hc : 0 < e.chunk) (w : World Pos) (hw : Wf w) (m r b : Nat) (h : Root w m r) (v o : Mesh Pos) (hv : w.meshes[m]? = some v)
    (hb : v.src = .view b) (ho : w.meshes[r]? = some o) (c : Nat)
    (p : List Pos) (cw cv : Option (List ℚ)) (cs : Option (List Bool)) (hx : o.src = .cat c (colsOf p cw cv cs))
    (h1 : ∀ l, cw = some l → l.length = p.length) (h2 : ∀ l, cv = some l → l.length = p.length) (h3 : ∀ l, cs = some l → l.length = p.length)
    (inter comp : Bool) (win : String) (hs : Settings w o inter comp win) (hwin : win ∈ e.methods) (hn : 0 < o.nmesh.prod) (mode : Mode) :
    computeData e w m (some mode) none =
        .ok (MeshObj.convert e.pm mode (v.actions.foldl (Act.run e.pm) (.re (contrast e win inter (objects p (ones p.length cw) (ones p.length cv) (trues p.length cs)) o.nmesh.prod))),
          stats (objects p (ones p.length cw) (ones p.length cv) (trues p.length cs)) o.nmesh.prod o.box.prod, o.nmesh, o.box) := by
  have hr := rows_spec e.chunk hc p cw cv cs h1 h2 h3
  have hl : actions e w v = .ok v.actions := by unfold actions; rw [hb]
  exact computeData_eq e w hw m r h v o c _ hv ho hx _ hl inter comp win hs hwin _ hr hn mode

/-! ## `to_mesh` -/

theorem alloc_spec (l : List (String × Val)) (vals : List Val) (d : Dict) :
    (∀ (i : Nat), i < vals.length → (MeshObj.alloc vals d l).1[i]? = vals[i]?) ∧ vals.length ≤ (MeshObj.alloc vals d l).1.length ∧
      ∀ k : String, (((MeshObj.alloc vals d l).2 k).bind fun r => (MeshObj.alloc vals d l).1[r]?) =
        ((l.reverse.find? fun p => p.1 = k).map Prod.snd).or ((d k).bind fun r => (MeshObj.alloc vals d l).1[r]?) := by
  induction l generalizing vals d with
  | nil => exact ⟨fun _ _ => rfl, Nat.le_refl _, fun k => by simp [MeshObj.alloc]⟩
  | cons x l ih =>
    obtain ⟨a, v⟩ := x
    obtain ⟨i1, i2, i3⟩ := ih (vals ++ [v]) (d.set a vals.length)
    simp only [List.length_append, List.length_cons, List.length_nil] at i1 i2
    refine ⟨?_, ?_, ?_⟩
    · intro i hi
      show (MeshObj.alloc (vals ++ [v]) (d.set a vals.length) l).1[i]? = _
      rw [i1 i (by omega), List.getElem?_append_left hi]
    · show _ ≤ (MeshObj.alloc (vals ++ [v]) (d.set a vals.length) l).1.length
      omega
    · intro k
      show (((MeshObj.alloc (vals ++ [v]) (d.set a vals.length) l).2 k).bind fun r => (MeshObj.alloc (vals ++ [v]) (d.set a vals.length) l).1[r]?) =
        (((((a, v) :: l).reverse).find? fun p => p.1 = k).map Prod.snd).or ((d k).bind fun r => (MeshObj.alloc (vals ++ [v]) (d.set a vals.length) l).1[r]?)
      rw [i3 k, List.reverse_cons, List.find?_append]
      cases (l.reverse.find? fun p => p.1 = k) with
      | some y => simp
      | none =>
        simp only [Option.map_none, Option.none_or, List.find?_cons, List.find?_nil]
        by_cases hk : a = k
        · subst hk
          simp only [MeshObj.Dict.set, if_pos, decide_true, Option.map_some, Option.some_or, Option.bind_some]
          rw [i1 vals.length (by omega), List.getElem?_append_right (Nat.le_refl _)]
          simp
        · simp only [MeshObj.Dict.set, if_neg (fun h => hk (Eq.symm h) : ¬ k = a), hk, decide_false, Option.map_none, Option.none_or]

/-- The mesh, the box: the keyword, or the attribute of the catalog. -/
def sizesOf (w : World Pos) (o : Cat Pos) (a : MeshArgs) : Except Err (List Nat × List ℚ) :=
  (orAttr a.box (attrOf w o.attrs "BoxSize") argBox).bind fun b =>
  (orAttr a.nmesh (attrOf w o.attrs "Nmesh") argMesh).bind fun n =>
  (MeshObj.shapeOf (some n)).bind fun n => (MeshObj.boxOf n.length (some b)).map fun b => (n, b)

/-- All references of a dictionary exist. -/
def Closed (w : World Pos) (d : Dict) : Prop := ∀ k r, d k = some r → r < w.vals.length

/-- `to_mesh` gives a mesh with the columns the catalog has now, and its attributes overwritten by `BoxSize`, `Nmesh` and the settings; nothing else changes. -/
theorem toMesh_spec (e : Env Pos) (w : World Pos) (c : Nat) (a : MeshArgs) (o : Cat Pos) (ho : w.cats[c]? = some o) (hcl : Closed w o.attrs)
    (cw cs cv cp : Col Pos) (h1 : o.col a.weight = some cw) (h2 : o.col a.selection = some cs) (h3 : o.col a.value = some cv) (h4 : o.col a.position = some cp)
    (hm : a.window.getD a.resampler ∈ e.methods) (n : List Nat) (b : List ℚ) (hs : sizesOf w o a = .ok (n, b)) :
    ∃ w' m, toMesh e w c a = .ok (w', w.meshes.length) ∧ w'.meshes = w.meshes ++ [m] ∧ w'.cats = w.cats ∧ w'.fields = w.fields ∧
      (∀ (i : Nat), i < w.vals.length → w'.vals[i]? = w.vals[i]?) ∧ m.src = .cat c ⟨some cp, some cw, some cv, some cs⟩ ∧ m.actions = [] ∧ m.nmesh = n ∧ m.box = b ∧
      attrOf w' m.attrs "interlaced" = some (.flag a.interlaced) ∧ attrOf w' m.attrs "compensated" = some (.flag a.compensated) ∧
      attrOf w' m.attrs "resampler" = some (.text (a.window.getD a.resampler)) ∧ attrOf w' m.attrs "BoxSize" = some (.arr b) ∧ attrOf w' m.attrs "Nmesh" = some (.arr (n.map fun (i : Nat) => (i : ℚ))) ∧
      ∀ k : String, k ∉ ["BoxSize", "Nmesh", "interlaced", "compensated", "resampler"] → attrOf w' m.attrs k = attrOf w o.attrs k := by
  unfold sizesOf at hs
  unfold toMesh
  rw [ho]
  dsimp only
  rw [if_neg (by rw [h1, h2]; simp), if_neg (fun h => h hm)]
  cases hb : orAttr a.box (attrOf w o.attrs "BoxSize") argBox with
  | error => rw [hb] at hs; cases hs
  | ok b0 =>
    rw [hb] at hs
    dsimp only [Except.bind] at hs ⊢
    cases hn : orAttr a.nmesh (attrOf w o.attrs "Nmesh") argMesh with
    | error => rw [hn] at hs; cases hs
    | ok n0 =>
      rw [hn] at hs
      dsimp only at hs ⊢
      unfold need
      rw [h1, h2, h3, h4]
      dsimp only
      unfold newCat
      rw [ho]
      dsimp only
      rw [if_neg (by simp)]
      cases hn1 : MeshObj.shapeOf (some n0) with
      | error => rw [hn1] at hs; cases hs
      | ok n1 =>
        rw [hn1] at hs
        dsimp only [Except.bind] at hs ⊢
        cases hb1 : MeshObj.boxOf n1.length (some b0) with
        | error => rw [hb1] at hs; cases hs
        | ok b1 =>
          rw [hb1] at hs
          dsimp only [Except.map] at hs ⊢
          injection hs with hs
          injection hs with hs1 hs2
          subst hs1 hs2
          obtain ⟨i1, i2, i3⟩ := alloc_spec [("BoxSize", .arr b1), ("Nmesh", .arr (n1.map fun (i : Nat) => (i : ℚ))),
            ("interlaced", .flag a.interlaced), ("compensated", .flag a.compensated), ("resampler", .text (a.window.getD a.resampler))] w.vals o.attrs
          refine ⟨_, _, rfl, rfl, rfl, rfl, i1, rfl, rfl, rfl, rfl, ?_, ?_, ?_, ?_, ?_, ?_⟩
          · unfold attrOf; dsimp only; rw [i3]; rfl
          · unfold attrOf; dsimp only; rw [i3]; rfl
          · unfold attrOf; dsimp only; rw [i3]; rfl
          · unfold attrOf; dsimp only; rw [i3]; rfl
          · unfold attrOf; dsimp only; rw [i3]; rfl
          · intro k hk
            unfold attrOf
            dsimp only
            rw [i3]
            simp only [List.mem_cons, List.not_mem_nil, or_false, not_or] at hk
            obtain ⟨k1, k2, k3, k4, k5⟩ := hk
            have : ([("BoxSize", Val.arr b1), ("Nmesh", .arr (n1.map fun (i : Nat) => (i : ℚ))),
              ("interlaced", .flag a.interlaced), ("compensated", .flag a.compensated), ("resampler", .text (a.window.getD a.resampler))].reverse.find? fun p => p.1 = k) = none := by
              rw [List.find?_eq_none]
              intro p hp
              simp only [List.reverse_cons, List.reverse_nil, List.nil_append, List.cons_append, List.mem_cons, List.not_mem_nil, or_false] at hp
              rcases hp with h | h | h | h | h <;> subst h <;> simp only [decide_eq_true_eq] <;> intro hk <;> simp_all
            rw [this, Option.map_none, Option.none_or]
            cases hd : o.attrs k with
            | none => rfl
            | some r => exact i1 r (hcl k r hd)

/-- `to_mesh` is refused exactly when a column is missing, the window is unknown, or there is no valid box or mesh. -/
theorem toMesh_ok_iff (e : Env Pos) (w : World Pos) (c : Nat) (a : MeshArgs) (o : Cat Pos) (ho : w.cats[c]? = some o) :
    (∃ r, toMesh e w c a = .ok r) ↔ (∀ k ∈ [a.weight, a.selection, a.value, a.position], (o.col k).isSome) ∧ a.window.getD a.resampler ∈ e.methods ∧
      ∃ r, sizesOf w o a = .ok r := by
  unfold toMesh sizesOf
  rw [ho]
  dsimp only
  simp only [List.mem_cons, List.not_mem_nil, or_false, forall_eq_or_imp, forall_eq]
  constructor
  · rintro ⟨r, h⟩
    by_cases c1 : (o.col a.weight).isNone ∨ (o.col a.selection).isNone
    · rw [if_pos c1] at h; cases h
    · rw [if_neg c1] at h
      by_cases c2 : a.window.getD a.resampler ∉ e.methods
      · rw [if_pos c2] at h; cases h
      · rw [if_neg c2] at h
        refine ⟨?_, not_not.mp c2, ?_⟩
        · cases hb : orAttr a.box (attrOf w o.attrs "BoxSize") argBox <;> rw [hb] at h <;> dsimp only [Except.bind] at h <;> try cases h
          cases hn : orAttr a.nmesh (attrOf w o.attrs "Nmesh") argMesh <;> rw [hn] at h <;> dsimp only at h <;> try cases h
          unfold need at h
          revert h c1
          cases o.col a.weight <;> cases o.col a.selection <;> cases o.col a.value <;> cases o.col a.position <;> simp
        · cases hb : orAttr a.box (attrOf w o.attrs "BoxSize") argBox <;> rw [hb] at h <;> dsimp only [Except.bind] at h ⊢ <;> try cases h
          cases hn : orAttr a.nmesh (attrOf w o.attrs "Nmesh") argMesh <;> rw [hn] at h <;> dsimp only at h ⊢ <;> try cases h
          unfold need at h
          revert h c1
          cases o.col a.weight <;> cases o.col a.selection <;> cases o.col a.value <;> cases o.col a.position <;> simp
          unfold newCat
          rw [ho]
          dsimp only
          rw [if_neg (by simp)]
          intro h
          rename_i n0 _ _ _ _
          cases hn1 : MeshObj.shapeOf (some n0) <;> rw [hn1] at h <;> dsimp only [Except.bind] at h ⊢ <;> try cases h
          cases hb1 : MeshObj.boxOf _ _ <;> rw [hb1] at h <;> dsimp only [Except.map] at h ⊢ <;> try cases h
          simp
  · rintro ⟨⟨h1, h2, h3, h4⟩, hm, r, hs⟩
    rw [if_neg (by simp [Option.isSome_iff_ne_none.mp h1, Option.isSome_iff_ne_none.mp h2]), if_neg (fun h => h hm)]
    cases hb : orAttr a.box (attrOf w o.attrs "BoxSize") argBox <;> rw [hb] at hs <;> dsimp only [Except.bind] at hs ⊢ <;> try cases hs
    cases hn : orAttr a.nmesh (attrOf w o.attrs "Nmesh") argMesh <;> rw [hn] at hs <;> dsimp only at hs ⊢ <;> try cases hs
    unfold need
    obtain ⟨x1, e1⟩ := Option.isSome_iff_exists.mp h1
    obtain ⟨x2, e2⟩ := Option.isSome_iff_exists.mp h2
    obtain ⟨x3, e3⟩ := Option.isSome_iff_exists.mp h3
    obtain ⟨x4, e4⟩ := Option.isSome_iff_exists.mp h4
    rw [e1, e2, e3, e4]
    dsimp only
    unfold newCat
    rw [ho]
    dsimp only
    rw [if_neg (by simp)]
    rename_i b0 n0
    cases hn1 : MeshObj.shapeOf (some n0) <;> rw [hn1] at hs <;> dsimp only [Except.bind] at hs ⊢ <;> try cases hs
    cases hb1 : MeshObj.boxOf _ _ <;> rw [hb1] at hs <;> dsimp only [Except.map] at hs ⊢ <;> try cases hs
    exact ⟨_, rfl⟩

end NBK.CatMesh
