import Verif.CatMesh.Props

/-!
# What changes a mesh in a program (C127)
-/
set_option linter.unusedSimpArgs false
namespace NBK.CatMesh
open NBK.MeshObj (Fld Fn Act Func Val Dict Arg Mode Err CF)
variable {Pos : Type}

/-- The attributes that are settings. -/
def settingNames : List String := ["interlaced", "compensated", "resampler"]

/-- The operations that are about the columns or settings of the mesh `r`. -/
def touches (r : Nat) : Op Pos → Prop
  | .assign m _ _ => m = r
  | .set m _ _ => m = r
  | .setResampler m _ => m = r
  | .setAttr m k _ => m = r ∧ k ∈ settingNames
  | _ => False

/-- A value that cannot be changed in place. -/
def Fixed (v : Val) : Prop := ∀ l, v ≠ .arr l

/-- The settings are there and are not arrays (`to_mesh` makes them so). -/
def Settled (w : World Pos) (o : Mesh Pos) : Prop := ∀ k ∈ settingNames, ∃ v, attrOf w o.attrs k = some v ∧ Fixed v

/-- What an operation can do. -/
inductive Effect (r : Nat) (touched : Prop) (w w' : World Pos) : Prop
  | grow (l : List (Mesh Pos)) (hm : w'.meshes = w.meshes ++ l) (hv : ∀ (i : Nat), i < w.vals.length → w'.vals[i]? = w.vals[i]?)
      (hl : ∀ (j : Nat) (o : Mesh Pos), l[j]? = some o → ∀ b : Nat, o.src = .view b → ∃ p : Mesh Pos, w.meshes[b]? = some p ∧ p.nmesh = o.nmesh ∧ p.box = o.box)
  | write (i : Nat) (old new : List ℚ) (hm : w'.meshes = w.meshes) (ho : w.vals[i]? = some (.arr old)) (hv : w'.vals = w.vals.set i (.arr new))
  | put (m : Nat) (o o' : Mesh Pos) (ho : w.meshes[m]? = some o) (hm : w'.meshes = w.meshes.set m o') (hv : ∀ (i : Nat), i < w.vals.length → w'.vals[i]? = w.vals[i]?)
      (ha : o'.actions = o.actions) (hn : o'.nmesh = o.nmesh) (hb : o'.box = o.box) (hs : ∀ b, o'.src = .view b ↔ o.src = .view b)
      (hr : ¬ touched → m = r → o'.src = o.src ∧ ∀ k ∈ settingNames, o'.attrs k = o.attrs k)

theorem same_effect (r : Nat) (t : Prop) (w w' : World Pos) (hm : w'.meshes = w.meshes) (hv : w'.vals = w.vals) : Effect r t w w' :=
  .grow [] (by rw [hm, List.append_nil]) (fun i _ => by rw [hv]) (fun j o h => by simp at h)

theorem writeVal_effect (r : Nat) (t : Prop) (w w' : World Pos) (d : Dict) (k : String) (l : List ℚ) (h : writeVal w d k l = .ok w') : Effect r t w w' := by
  unfold writeVal at h
  cases hd : d k with
  | none => rw [hd] at h; cases h
  | some i =>
    rw [hd] at h
    dsimp only at h
    cases hv : w.vals[i]? with
    | none => rw [hv] at h; cases h
    | some v =>
      rw [hv] at h
      cases v with
      | arr old =>
        dsimp only at h
        by_cases hl : l.length = old.length
        · rw [if_pos hl] at h
          injection h with h
          subst h
          exact .write i old l rfl hv rfl
        · rw [if_neg hl] at h; cases h
      | num => cases h
      | flag => cases h
      | text => cases h

theorem append_vals {α : Type} (vals : List α) (v : α) (i : Nat) (h : i < vals.length) : (vals ++ [v])[i]? = vals[i]? := List.getElem?_append_left h

theorem newCat_effect (r : Nat) (t : Prop) (w : World Pos) (c : Nat) (n : Option (Arg Nat)) (b : Option (Arg ℚ)) (cols : Cols Pos) (i p : Bool) (s : String) (x : World Pos × Nat)
    (h : newCat w c n b cols i p s = .ok x) : Effect r t w x.1 := by
  unfold newCat at h
  cases hc : w.cats[c]? with
  | none => rw [hc] at h; cases h
  | some o =>
    rw [hc] at h
    dsimp only at h
    by_cases hn : n.isNone ∨ b.isNone
    · rw [if_pos hn] at h; cases h
    · rw [if_neg hn] at h
      cases h1 : MeshObj.shapeOf n with
      | error => rw [h1] at h; cases h
      | ok n1 =>
        rw [h1] at h
        dsimp only [Except.bind] at h
        cases h2 : MeshObj.boxOf n1.length b with
        | error => rw [h2] at h; cases h
        | ok b1 =>
          rw [h2] at h
          dsimp only [Except.map] at h
          injection h with h
          subst h
          refine .grow _ rfl (alloc_spec _ w.vals o.attrs).1 ?_
          intro j q hq b0 hb
          cases j with
          | zero =>
            simp only [List.getElem?_cons_zero] at hq
            injection hq with hq
            subst hq
            cases hb
          | succ j => simp at hq

theorem toMesh_effect (e : Env Pos) (r : Nat) (t : Prop) (w : World Pos) (c : Nat) (a : MeshArgs) (x : World Pos × Nat) (h : toMesh e w c a = .ok x) : Effect r t w x.1 := by
  unfold toMesh at h
  cases hc : w.cats[c]? with
  | none => rw [hc] at h; cases h
  | some o =>
    rw [hc] at h
    dsimp only at h
    by_cases c1 : (o.col a.weight).isNone ∨ (o.col a.selection).isNone
    · rw [if_pos c1] at h; cases h
    · rw [if_neg c1] at h
      by_cases c2 : a.window.getD a.resampler ∉ e.methods
      · rw [if_pos c2] at h; cases h
      · rw [if_neg c2] at h
        cases h1 : orAttr a.box (attrOf w o.attrs "BoxSize") argBox <;> rw [h1] at h <;> dsimp only [Except.bind] at h <;> try cases h
        cases h2 : orAttr a.nmesh (attrOf w o.attrs "Nmesh") argMesh <;> rw [h2] at h <;> dsimp only at h <;> try cases h
        cases h3 : need o a.weight <;> rw [h3] at h <;> dsimp only at h <;> try cases h
        cases h4 : need o a.selection <;> rw [h4] at h <;> dsimp only at h <;> try cases h
        cases h5 : need o a.value <;> rw [h5] at h <;> dsimp only at h <;> try cases h
        cases h6 : need o a.position <;> rw [h6] at h <;> dsimp only at h <;> try cases h
        exact newCat_effect r t w _ _ _ _ _ _ _ _ h

theorem view_grow (r : Nat) (t : Prop) (w : World Pos) (m : Nat) (o : Mesh Pos) (ho : w.meshes[m]? = some o) (l : List (Act Rf)) :
    Effect r t w { w with meshes := w.meshes ++ [⟨.view m, l, o.attrs, o.nmesh, o.box⟩] } := by
  refine .grow _ rfl (fun _ _ => rfl) ?_
  intro j q hq b hb
  cases j with
  | zero =>
    simp only [List.getElem?_cons_zero] at hq
    injection hq with hq
    subst hq
    injection hb with hb
    subst hb
    exact ⟨o, ho, rfl, rfl⟩
  | succ j => simp at hq

theorem view_effect (e : Env Pos) (r : Nat) (t : Prop) (w : World Pos) (m : Nat) (x : World Pos × Nat) (h : view e w m = .ok x) : Effect r t w x.1 := by
  unfold view at h
  cases ho : w.meshes[m]? with
  | none => rw [ho] at h; cases h
  | some o =>
    rw [ho] at h
    dsimp only at h
    cases ha : actions e w o with
    | error => rw [ha] at h; cases h
    | ok l =>
      rw [ha] at h
      dsimp only [Except.map] at h
      injection h with h
      subst h
      exact view_grow r t w m o ho l

theorem apply_effect (e : Env Pos) (r : Nat) (t : Prop) (w : World Pos) (m : Nat) (func : Func Rf) (kind mode : Option String) (x : World Pos × Nat)
    (h : apply e w m func kind mode = .ok x) : Effect r t w x.1 := by
  unfold apply at h
  dsimp only at h
  cases hc : MeshObj.checkAct (func.resolve mode kind).1 (func.resolve mode kind).2.1 (func.resolve mode kind).2.2 with
  | error => rw [hc] at h; cases h
  | ok a =>
    rw [hc] at h
    dsimp only [Except.bind] at h
    cases ho : w.meshes[m]? with
    | none => rw [ho] at h; cases h
    | some o =>
      rw [ho] at h
      dsimp only at h
      cases ha : actions e w o with
      | error => rw [ha] at h; cases h
      | ok l =>
        rw [ha] at h
        dsimp only [Except.map] at h
        injection h with h
        subst h
        exact view_grow r t w m o ho _

theorem compute_effect (e : Env Pos) (r : Nat) (t : Prop) (w : World Pos) (m : Nat) (mode : Option Mode) (nm : Option (Arg Nat)) (x : World Pos × Nat)
    (h : compute e w m mode nm = .ok x) : Effect r t w x.1 := by
  unfold compute at h
  cases hc : computeData e w m mode nm with
  | error => rw [hc] at h; cases h
  | ok f =>
    rw [hc] at h
    dsimp only [Except.bind] at h
    cases ho : w.meshes[m]? with
    | none => rw [ho] at h; cases h
    | some o =>
      rw [ho] at h
      dsimp only at h
      injection h with h
      subst h
      exact .grow [] (by simp) (alloc_spec _ w.vals _).1 (fun j o h => by simp at h)

theorem paintInto_effect (e : Env Pos) (r : Nat) (t : Prop) (w : World Pos) (m f : Nat) (n : Bool) (w' : World Pos)
    (h : paintInto e w m f n = .ok w') : Effect r t w w' := by
  unfold paintInto at h
  cases ho : w.meshes[m]? with
  | none => rw [ho] at h; cases h
  | some o =>
    cases hf : w.fields[f]? with
    | none => rw [ho, hf] at h; cases h
    | some x =>
      rw [ho, hf] at h
      dsimp only at h
      cases hs : o.src with
      | view b =>
        rw [hs] at h
        dsimp only at h
        cases hr : toReal e w w.meshes.length m (fun _ => 0) true with
        | error => rw [hr] at h; cases h
        | ok y =>
          rw [hr] at h
          dsimp only [Except.map] at h
          injection h with h
          subst h
          exact .grow [] (by simp) (alloc_spec _ w.vals _).1 (fun j o h => by simp at h)
      | cat c cols =>
        rw [hs] at h
        cases hd : x.data with
        | re old =>
          rw [hd] at h
          dsimp only at h
          cases hw : windowOf e w o.attrs with
          | error => rw [hw] at h; cases h
          | ok s =>
            rw [hw] at h
            dsimp only [Except.bind] at h
            by_cases hn : x.nmesh ≠ o.nmesh
            · rw [if_pos hn] at h; cases h
            · rw [if_neg hn] at h
              cases hp : paintCat e w o cols old n with
              | error => rw [hp] at h; cases h
              | ok y =>
                rw [hp] at h
                dsimp only [Except.map] at h
                injection h with h
                subst h
                exact .grow [] (by simp) (alloc_spec _ w.vals _).1 (fun j o h => by simp at h)
        | co y =>
          rw [hd] at h
          dsimp only at h
          cases hw : windowOf e w o.attrs <;> rw [hw] at h <;> cases h
        | un y =>
          rw [hd] at h
          dsimp only at h
          cases hw : windowOf e w o.attrs <;> rw [hw] at h <;> cases h

theorem putAttr_effect (r : Nat) (t : Prop) (w : World Pos) (m : Nat) (o : Mesh Pos) (ho : w.meshes[m]? = some o) (k : String) (v : Val)
    (ht : ¬ t → m = r → k ∉ settingNames) : Effect r t w (putAttr w m o k v) := by
  refine .put m o _ ho rfl (fun i hi => append_vals _ _ _ hi) rfl rfl rfl (fun b => Iff.rfl) ?_
  intro hn hr
  refine ⟨rfl, ?_⟩
  intro k' hk'
  dsimp only [MeshObj.Dict.set]
  rw [if_neg]
  intro heq
  exact ht hn hr (heq ▸ hk')

theorem step_effect (e : Env Pos) (r : Nat) (w w' : World Pos) (op : Op Pos) (h : step e w op = .ok w') : Effect r (touches r op) w w' := by
  cases op with
  | catalog n cols => injection h with h; subst h; exact same_effect _ _ _ _ rfl rfl
  | setCol c k x =>
    unfold step at h; dsimp only at h
    cases hc : w.cats[c]? with
    | none => rw [hc] at h; cases h
    | some o =>
      rw [hc] at h; dsimp only at h
      by_cases hl : x.length = o.size
      · rw [if_pos hl] at h; injection h with h; subst h; exact same_effect _ _ _ _ rfl rfl
      · rw [if_neg hl] at h; cases h
  | delCol c k =>
    unfold step at h; dsimp only at h
    cases hc : w.cats[c]? with
    | none => rw [hc] at h; cases h
    | some o =>
      rw [hc] at h; dsimp only at h
      by_cases hl : (o.cols k).isSome
      · rw [if_pos hl] at h; injection h with h; subst h; exact same_effect _ _ _ _ rfl rfl
      · rw [if_neg hl] at h; cases h
  | setCatAttr c k v =>
    unfold step at h; dsimp only at h
    cases hc : w.cats[c]? with
    | none => rw [hc] at h; cases h
    | some o =>
      rw [hc] at h; dsimp only at h
      injection h with h; subst h
      exact .grow [] (by simp) (fun i hi => append_vals _ _ _ hi) (fun j o h => by simp at h)
  | writeCatAttr c k l =>
    unfold step at h; dsimp only at h
    cases hc : w.cats[c]? with
    | none => rw [hc] at h; cases h
    | some o => rw [hc] at h; exact writeVal_effect _ _ _ _ _ _ _ h
  | toMesh c a =>
    unfold step at h
    dsimp only at h
    cases hx : toMesh e w c a with
    | error => rw [hx] at h; cases h
    | ok x => rw [hx] at h; injection h with h; subst h; exact toMesh_effect e _ _ w c a x hx
  | direct c n b cols i p s =>
    unfold step at h
    dsimp only at h
    cases hx : newCat w c n b cols i p s with
    | error => rw [hx] at h; cases h
    | ok x => rw [hx] at h; injection h with h; subst h; exact newCat_effect _ _ w c n b cols i p s x hx
  | assign m s x =>
    unfold step at h; dsimp only at h
    cases ho : w.meshes[m]? with
    | none => rw [ho] at h; cases h
    | some o =>
      rw [ho] at h; dsimp only at h
      cases hs : o.src with
      | view b => rw [hs] at h; injection h with h; subst h; exact same_effect _ _ _ _ rfl rfl
      | cat c cols =>
        rw [hs] at h; injection h with h; subst h
        refine .put m o _ ho rfl (fun _ _ => rfl) rfl rfl rfl (fun b => ?_) (fun hn hr => absurd hr hn)
        rw [hs]
        constructor <;> intro h <;> cases h
  | set m s v =>
    unfold step at h; dsimp only at h
    cases ho : w.meshes[m]? with
    | none => rw [ho] at h; cases h
    | some o =>
      rw [ho] at h; dsimp only at h
      cases hs : o.src with
      | view b => rw [hs] at h; injection h with h; subst h; exact same_effect _ _ _ _ rfl rfl
      | cat c cols =>
        rw [hs] at h; injection h with h; subst h
        exact putAttr_effect _ _ w m o ho _ _ (fun hn hr => absurd hr hn)
  | setResampler m name =>
    unfold step at h; dsimp only at h
    cases ho : w.meshes[m]? with
    | none => rw [ho] at h; cases h
    | some o =>
      rw [ho] at h; dsimp only at h
      cases hs : o.src with
      | view b => rw [hs] at h; injection h with h; subst h; exact same_effect _ _ _ _ rfl rfl
      | cat c cols =>
        rw [hs] at h; dsimp only at h
        by_cases hm : name ∈ e.methods
        · rw [if_pos hm] at h; injection h with h; subst h
          exact putAttr_effect _ _ w m o ho _ _ (fun hn hr => absurd hr hn)
        · rw [if_neg hm] at h; cases h
  | setAttr m k v =>
    unfold step at h; dsimp only at h
    cases ho : w.meshes[m]? with
    | none => rw [ho] at h; cases h
    | some o =>
      rw [ho] at h; injection h with h; subst h
      exact putAttr_effect _ _ w m o ho _ _ (fun hn hr hk => hn ⟨hr, hk⟩)
  | writeAttr m k l =>
    unfold step at h; dsimp only at h
    cases ho : w.meshes[m]? with
    | none => rw [ho] at h; cases h
    | some o => rw [ho] at h; exact writeVal_effect _ _ _ _ _ _ _ h
  | view m =>
    unfold step at h
    dsimp only at h
    cases hx : view e w m with
    | error => rw [hx] at h; cases h
    | ok x => rw [hx] at h; injection h with h; subst h; exact view_effect e _ _ w m x hx
  | apply m func kind mode =>
    unfold step at h
    dsimp only at h
    cases hx : apply e w m func kind mode with
    | error => rw [hx] at h; cases h
    | ok x => rw [hx] at h; injection h with h; subst h; exact apply_effect e _ _ w m func kind mode x hx
  | compute m mode nm =>
    unfold step at h
    dsimp only at h
    cases hx : compute e w m mode nm with
    | error => rw [hx] at h; cases h
    | ok x => rw [hx] at h; injection h with h; subst h; exact compute_effect e _ _ w m mode nm x hx
  | paintInto m f n => exact paintInto_effect e _ _ w m f n w' h
  | writeFieldAttr f k l =>
    unfold step at h; dsimp only at h
    cases ho : w.fields[f]? with
    | none => rw [ho] at h; cases h
    | some o => rw [ho] at h; exact writeVal_effect _ _ _ _ _ _ _ h

/-! ## Views stay in order -/

theorem wf_effect (r : Nat) (t : Prop) (w w' : World Pos) (hw : Wf w) (h : Effect r t w w') : Wf w' := by
  intro m o hm b hb
  cases h with
  | grow l h1 h2 h3 =>
    rw [h1] at hm ⊢
    by_cases hlt : m < w.meshes.length
    · rw [List.getElem?_append_left hlt] at hm
      obtain ⟨hb1, p, hp, h4, h5⟩ := hw m o hm b hb
      exact ⟨hb1, p, by rw [List.getElem?_append_left (by omega)]; exact hp, h4, h5⟩
    · rw [List.getElem?_append_right (by omega)] at hm
      obtain ⟨p, hp, h4, h5⟩ := h3 _ o hm b hb
      have := (List.getElem?_eq_some_iff.mp hp).1
      exact ⟨by omega, p, by rw [List.getElem?_append_left this]; exact hp, h4, h5⟩
  | write i old new h1 h2 h3 =>
    rw [h1] at hm ⊢
    exact hw m o hm b hb
  | put q x x' h1 h2 h3 ha hn hbx hs hr =>
    have hsame : ∀ (j : Nat) (y : Mesh Pos), w.meshes[j]? = some y → ∃ y' : Mesh Pos, w'.meshes[j]? = some y' ∧ y'.nmesh = y.nmesh ∧ y'.box = y.box := by
      intro j y hy
      rw [h2]
      by_cases hj : q = j
      · subst hj
        rw [h1] at hy
        injection hy with hy
        subst hy
        exact ⟨x', by rw [List.getElem?_set_self (List.getElem?_eq_some_iff.mp h1).1], hn, hbx⟩
      · exact ⟨y, by rw [List.getElem?_set_ne hj]; exact hy, rfl, rfl⟩
    rw [h2] at hm
    by_cases hq : q = m
    · subst hq
      rw [List.getElem?_set_self (List.getElem?_eq_some_iff.mp h1).1] at hm
      injection hm with hm
      subst hm
      obtain ⟨hb1, p, hp, h4, h5⟩ := hw q x h1 b ((hs b).mp hb)
      obtain ⟨p', hp', h6, h7⟩ := hsame b p hp
      exact ⟨hb1, p', hp', by rw [h6, h4, hn], by rw [h7, h5, hbx]⟩
    · rw [List.getElem?_set_ne hq] at hm
      obtain ⟨hb1, p, hp, h4, h5⟩ := hw m o hm b hb
      obtain ⟨p', hp', h6, h7⟩ := hsame b p hp
      exact ⟨hb1, p', hp', by rw [h6, h4], by rw [h7, h5]⟩

/-- Every program keeps the order of views. -/
theorem wf_run (e : Env Pos) (w : World Pos) (hw : Wf w) (ops : List (Op Pos)) : Wf (run e w ops) := by
  induction ops generalizing w with
  | nil => exact hw
  | cons op ops ih =>
    unfold run
    apply ih
    cases h : step e w op with
    | error => exact hw
    | ok w' => exact wf_effect 0 _ w w' hw (step_effect e 0 w w' op h)

/-! ## Stability -/

/-- Nothing that the field of a mesh with root `r` depends on has changed. -/
structure Kept (r : Nat) (w w' : World Pos) : Prop where
  mesh : ∀ (m : Nat) (o : Mesh Pos), w.meshes[m]? = some o → ∃ o' : Mesh Pos, w'.meshes[m]? = some o' ∧ o'.actions = o.actions ∧ o'.nmesh = o.nmesh ∧ o'.box = o.box ∧
    (∀ b, o.src = .view b → o'.src = .view b) ∧ (m = r → o'.src = o.src ∧ ∀ k ∈ settingNames, o'.attrs k = o.attrs k)
  val : ∀ (i : Nat) (v : Val), w.vals[i]? = some v → Fixed v → w'.vals[i]? = some v

theorem Kept.refl (r : Nat) (w : World Pos) : Kept r w w :=
  ⟨fun _ o h => ⟨o, h, rfl, rfl, rfl, fun _ h => h, fun _ => ⟨rfl, fun _ _ => rfl⟩⟩, fun _ _ h _ => h⟩

theorem Kept.trans {r : Nat} {a b c : World Pos} (h : Kept r a b) (h' : Kept r b c) : Kept r a c := by
  refine ⟨?_, fun i v hi hf => h'.val i v (h.val i v hi hf) hf⟩
  intro m o ho
  obtain ⟨o1, p1, p2, p3, p4, p5, p6⟩ := h.mesh m o ho
  obtain ⟨o2, q1, q2, q3, q4, q5, q6⟩ := h'.mesh m o1 p1
  refine ⟨o2, q1, q2.trans p2, q3.trans p3, q4.trans p4, fun b hb => q5 b (p5 b hb), fun hr => ?_⟩
  exact ⟨(q6 hr).1.trans (p6 hr).1, fun k hk => ((q6 hr).2 k hk).trans ((p6 hr).2 k hk)⟩

theorem kept_effect (r : Nat) (t : Prop) (ht : ¬ t) (w w' : World Pos) (h : Effect r t w w') : Kept r w w' := by
  cases h with
  | grow l h1 h2 h3 =>
    refine ⟨?_, ?_⟩
    · intro m o ho
      have hlt := (List.getElem?_eq_some_iff.mp ho).1
      exact ⟨o, by rw [h1, List.getElem?_append_left hlt]; exact ho, rfl, rfl, rfl, fun _ h => h, fun _ => ⟨rfl, fun _ _ => rfl⟩⟩
    · intro i v hi _
      rw [h2 i (List.getElem?_eq_some_iff.mp hi).1, hi]
  | write i old new h1 h2 h3 =>
    refine ⟨?_, ?_⟩
    · intro m o ho
      exact ⟨o, by rw [h1]; exact ho, rfl, rfl, rfl, fun _ h => h, fun _ => ⟨rfl, fun _ _ => rfl⟩⟩
    · intro j v hj hf
      rw [h3]
      by_cases hij : i = j
      · subst hij
        rw [h2] at hj
        injection hj with hj
        exact absurd hj.symm (hf old)
      · rw [List.getElem?_set_ne hij]; exact hj
  | put q x x' h1 h2 h3 ha hn hb hs hr =>
    refine ⟨?_, ?_⟩
    · intro m o ho
      by_cases hq : q = m
      · subst hq
        rw [h1] at ho
        injection ho with ho
        subst ho
        exact ⟨x', by rw [h2, List.getElem?_set_self (List.getElem?_eq_some_iff.mp h1).1], ha, hn, hb, fun b hb => (hs b).mpr hb, hr ht⟩
      · exact ⟨o, by rw [h2, List.getElem?_set_ne hq]; exact ho, rfl, rfl, rfl, fun _ h => h, fun _ => ⟨rfl, fun _ _ => rfl⟩⟩
    · intro i v hi _
      rw [h3 i (List.getElem?_eq_some_iff.mp hi).1, hi]

theorem kept_run (e : Env Pos) (r : Nat) (w : World Pos) (ops : List (Op Pos)) (h : ∀ op ∈ ops, ¬ touches r op) : Kept r w (run e w ops) := by
  induction ops generalizing w with
  | nil => exact .refl r w
  | cons op ops ih =>
    unfold run
    refine Kept.trans ?_ (ih _ (fun o ho => h o (List.mem_cons_of_mem _ ho)))
    cases hs : step e w op with
    | error => exact .refl r w
    | ok w' => exact kept_effect r _ (h op List.mem_cons_self) w w' (step_effect e r w w' op hs)

theorem kept_root {r : Nat} {w w' : World Pos} (hk : Kept r w w') {m : Nat} (h : Root w m r) : Root w' m r := by
  induction h with
  | here m c o x h hs =>
    obtain ⟨o', h1, _, _, _, _, h6⟩ := hk.mesh m o h
    exact .here m c o' x h1 ((h6 rfl).1.trans hs)
  | there m b r o h hs hr ih =>
    obtain ⟨o', h1, _, _, _, h5, _⟩ := hk.mesh m o h
    exact .there m b r o' h1 (h5 b hs) (ih hk)

theorem kept_attr {r : Nat} {w w' : World Pos} (hk : Kept r w w') (o o' : Mesh Pos) (hset : Settled w o)
    (ha : ∀ k ∈ settingNames, o'.attrs k = o.attrs k) (k : String) (hmem : k ∈ settingNames) : attrOf w' o'.attrs k = attrOf w o.attrs k := by
  obtain ⟨v, hv, hf⟩ := hset k hmem
  rw [hv]
  unfold attrOf at hv ⊢
  rw [ha k hmem]
  cases hd : o.attrs k with
  | none => rw [hd] at hv; cases hv
  | some i =>
    rw [hd] at hv
    exact hk.val i v hv hf

/-- **What a mesh gives does not depend on anything but its own columns and settings.** A program that does not assign to them — it may change columns and attributes of
the catalog, make and change other meshes and views, compute fields and write into arrays of attributes — leaves `compute` of the mesh and of all its views as it was. -/
theorem compute_stable (e : Env Pos) (w : World Pos) (hw : Wf w) (m r : Nat) (hr : Root w m r) (o : Mesh Pos) (ho : w.meshes[r]? = some o) (hset : Settled w o)
    (ops : List (Op Pos)) (h : ∀ op ∈ ops, ¬ touches r op) (mode : Option Mode) (nm : Option (Arg Nat)) :
    computeData e (run e w ops) m mode nm = computeData e w m mode nm := by
  have hk := kept_run e r w ops h
  have hw' := wf_run e w hw ops
  have hr' := kept_root hk hr
  obtain ⟨om, o2, c, x, hm, ho2, hx, hn, hb⟩ := root_mesh hw hr
  rw [ho] at ho2
  injection ho2 with ho2
  subst ho2
  obtain ⟨o', h1, h2, h3, h4, h5, h6⟩ := hk.mesh r o ho
  obtain ⟨h7, h8⟩ := h6 rfl
  obtain ⟨om', g1, g2, g3, g4, g5, g6⟩ := hk.mesh m om hm
  have hatt := kept_attr hk o o' hset h8
  have hflag : ∀ k ∈ settingNames, flagOf (run e w ops) o'.attrs k = flagOf w o.attrs k := by
    intro k hkm
    unfold flagOf
    rw [hatt k hkm]
  have hpaint : paintCat e (run e w ops) o' x (fun _ => 0) true = paintCat e w o x (fun _ => 0) true := by
    unfold paintCat windowOf nameOf
    rw [hatt "resampler" (by decide), hflag "interlaced" (by decide), h3, h4]
  have hact : actions e (run e w ops) om' = actions e w om := by
    cases hs : om.src with
    | view b =>
      unfold actions
      rw [g5 b hs, hs]
      dsimp only
      rw [g2]
    | cat c' x' =>
      have hmr : m = r := by
        cases hr with
        | here => rfl
        | there _ b _ oo hh hv _ =>
          rw [hm] at hh
          injection hh with hh
          subst hh
          rw [hs] at hv
          cases hv
      obtain ⟨k1, k2⟩ := g6 hmr
      subst hmr
      rw [hm] at ho
      injection ho with ho
      subst ho
      rw [h1] at g1
      injection g1 with g1
      subst g1
      unfold actions
      rw [k1, hs]
      dsimp only
      rw [hflag "compensated" (by decide), g2]
      unfold compAct
      rw [hatt "interlaced" (by decide), hatt "resampler" (by decide)]
  have hlt : m < w.meshes.length := (List.getElem?_eq_some_iff.mp hm).1
  have hlt' : m < (run e w ops).meshes.length := (List.getElem?_eq_some_iff.mp g1).1
  unfold computeData toField
  cases mode with
  | none => rfl
  | some mode =>
    dsimp only
    rw [g1, hm]
    dsimp only
    rw [hact, toReal_root e w hw m r hr o c x ho hx _ hlt, toReal_root e _ hw' m r hr' o' c x h1 (h7.trans hx) _ hlt', hpaint, g3, g4, h3, h4]

end NBK.CatMesh
