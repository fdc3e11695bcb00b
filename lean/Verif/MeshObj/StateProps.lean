import Verif.MeshObj.Props

/-!
# C122: mesh objects in programs
-/
set_option linter.unusedSimpArgs false
namespace NBK.MeshObj

variable {R P A : Type}

/-! ## One step -/

theorem alloc_vals : ∀ (l : List (String × Val)) (vals : List Val) (d : Dict), (∀ k r, d k = some r → r < vals.length) →
    (∃ t, (alloc vals d l).1 = vals ++ t) ∧ ∀ k r, (alloc vals d l).2 k = some r → r < (alloc vals d l).1.length
  | [], vals, d, h => ⟨⟨[], by simp [alloc]⟩, h⟩
  | (k, v) :: l, vals, d, h => by
    obtain ⟨⟨t, ht⟩, hr⟩ := alloc_vals l (vals ++ [v]) (d.set k vals.length) (by
      intro k' r hk
      unfold Dict.set at hk
      by_cases e : k' = k
      · rw [if_pos e] at hk; injection hk with hk; subst hk; simp
      · rw [if_neg e] at hk; have := h k' r hk; simp; omega)
    exact ⟨⟨v :: t, by simp [alloc, ht]⟩, hr⟩

/-- What a step that makes something new does: nothing old changes. -/
structure Extends (w w' : World R P) : Prop where
  fields : ∃ t, w'.fields = w.fields ++ t
  meshes : ∃ t, w'.meshes = w.meshes ++ t
  vals : ∃ t, w'.vals = w.vals ++ t

theorem Extends.refl (w : World R P) : Extends w w := ⟨⟨[], by simp⟩, ⟨[], by simp⟩, ⟨[], by simp⟩⟩

theorem Extends.trans {w w' w'' : World R P} (h : Extends w w') (h' : Extends w' w'') : Extends w w'' := by
  obtain ⟨⟨a, ha⟩, ⟨b, hb⟩, ⟨c, hc⟩⟩ := h
  obtain ⟨⟨a', ha'⟩, ⟨b', hb'⟩, ⟨c', hc'⟩⟩ := h'
  exact ⟨⟨a ++ a', by rw [ha', ha, List.append_assoc]⟩, ⟨b ++ b', by rw [hb', hb, List.append_assoc]⟩, ⟨c ++ c', by rw [hc', hc, List.append_assoc]⟩⟩

theorem append_old {α : Type} {l t : List α} {i : Nat} {a : α} (h : l[i]? = some a) : (l ++ t)[i]? = some a := by
  rw [List.getElem?_append_left (List.getElem?_eq_some_iff.1 h).1, h]

/-- A new mesh. -/
theorem newMesh_spec (w : World R P) (src : Src P) (pre : List (String × Val)) (n : Option (Arg Nat)) (b : Option (Arg ℚ)) (w' : World R P) (m : Nat)
    (h : newMesh w src pre n b = .ok (w', m)) :
    ∃ o vals, w' = ⟨w.fields, w.meshes ++ [o], w.vals ++ vals⟩ ∧ m = w.meshes.length ∧ o.src = src ∧ o.actions = [] ∧ (∀ k r, o.attrs k = some r → r < w'.vals.length) := by
  unfold newMesh at h
  split at h
  · cases h
  · cases hn : shapeOf n with
    | error x => rw [hn] at h; cases h
    | ok n' =>
      rw [hn] at h
      cases hb : boxOf n'.length b with
      | error x => simp only [Except.bind, hb] at h; cases h
      | ok b' =>
        simp only [Except.bind, hb, Except.map, Except.ok.injEq, Prod.mk.injEq] at h
        obtain ⟨⟨t, ht⟩, hr⟩ := alloc_vals (pre ++ [("BoxSize", .arr b'), ("Nmesh", .arr (n'.map fun (i : Nat) => (i : ℚ)))]) w.vals (fun _ => none) (by intro k r hk; cases hk)
        obtain ⟨hw, hm⟩ := h
        generalize alloc w.vals (fun _ => none) (pre ++ [("BoxSize", .arr b'), ("Nmesh", .arr (n'.map fun (i : Nat) => (i : ℚ)))]) = q at *
        refine ⟨⟨src, [], q.2, n', b'⟩, t, ?_, hm.symm, rfl, rfl, ?_⟩
        · rw [← hw, ht]
        · rw [← hw]
          exact hr

/-- Everything that only makes new objects. -/
def makes : Op R P A → Bool
  | .field .. => true
  | .fieldMesh .. => true
  | .arrayMesh .. => true
  | .linear .. => true
  | .view .. => true
  | .apply .. => true
  | .compute .. => true
  | _ => false

/-- **Nothing old is changed** by making meshes, views, applying functions, and computing. In particular a field is never modified by a mesh made of it. -/
theorem makes_extends (e : Env R P A) (w w' : World R P) (op : Op R P A) (hm : makes op = true) (h : step e w op = .ok w') : Extends w w' := by
  cases op with
  | field f n b => injection h with h; subst h; exact ⟨⟨_, rfl⟩, ⟨[], by simp⟩, ⟨[], by simp⟩⟩
  | fieldMesh f =>
    simp only [step, newFieldMesh] at h
    split at h
    · cases h
    · rename_i o _
      cases hn : newMesh w (.field f) [] (some (.many o.nmesh)) (some (.many o.box)) with
      | error x => rw [hn] at h; cases h
      | ok r =>
        rw [hn] at h
        injection h with h
        subst h
        obtain ⟨o', t, hw, _⟩ := newMesh_spec w _ _ _ _ r.1 r.2 hn
        rw [hw]
        exact ⟨⟨[], by simp⟩, ⟨_, rfl⟩, ⟨_, rfl⟩⟩
  | arrayMesh arrays root box kw =>
    simp only [step, newArrayMesh] at h
    split at h
    · cases h
    · rename_i a _
      cases hr : realArr e a with
      | error x => rw [hr] at h; cases h
      | ok r =>
        rw [hr] at h
        simp only [Except.bind] at h
        split at h
        · cases hb : boxOf r.1.length box with
          | error x => rw [hb] at h; cases h
          | ok b =>
            rw [hb] at h
            dsimp only at h
            generalize hw1 : ({ w with fields := w.fields ++ [⟨.re (e.load r.1 r.2), r.1, b, fun _ => none⟩] } : World R P) = w1 at h
            cases hn : newMesh w1 (.field w.fields.length) [] (some (.many r.1)) box with
            | error x => rw [hn] at h; cases h
            | ok q =>
              rw [hn] at h
              injection h with h
              subst h
              obtain ⟨o', t, hw, _⟩ := newMesh_spec w1 _ _ _ _ q.1 q.2 hn
              rw [hw, ← hw1]
              exact ⟨⟨_, rfl⟩, ⟨_, rfl⟩, ⟨_, rfl⟩⟩
        · cases h
  | linear p plin box nmesh seed draw u i r =>
    simp only [step, newLinear] at h
    cases hn : newMesh w (.linear p) (linearAttrs plin seed draw u i r) nmesh box with
    | error x => rw [hn] at h; cases h
    | ok q =>
      rw [hn] at h
      injection h with h
      subst h
      obtain ⟨o', t, hw, _⟩ := newMesh_spec w _ _ _ _ q.1 q.2 hn
      rw [hw]
      exact ⟨⟨[], by simp⟩, ⟨_, rfl⟩, ⟨_, rfl⟩⟩
  | view m =>
    simp only [step, view] at h
    split at h
    · cases h
    · injection h with h; subst h; exact ⟨⟨[], by simp⟩, ⟨_, rfl⟩, ⟨[], by simp⟩⟩
  | apply m func kind mode =>
    simp only [step, apply] at h
    cases hc : checkAct (func.resolve mode kind).1 (func.resolve mode kind).2.1 (func.resolve mode kind).2.2 with
    | error x => rw [hc] at h; cases h
    | ok a =>
      rw [hc] at h
      simp only [Except.bind] at h
      split at h
      · cases h
      · injection h with h; subst h; exact ⟨⟨[], by simp⟩, ⟨_, rfl⟩, ⟨[], by simp⟩⟩
  | compute m mode n =>
    simp only [step] at h
    cases hc : computeField e w m mode n with
    | error x => rw [hc] at h; cases h
    | ok f =>
      rw [hc] at h
      injection h with h
      subst h
      exact ⟨⟨_, rfl⟩, ⟨[], by simp⟩, ⟨[], by simp⟩⟩
  | writeField f x => cases hm
  | setAttr m k v => cases hm
  | setFieldAttr f k v => cases hm
  | writeAttr m k l => cases hm
  | writeFieldAttr f k l => cases hm

theorem run_extends (e : Env R P A) : ∀ (ops : List (Op R P A)) (w : World R P), (∀ o ∈ ops, makes o = true) → Extends w (run e w ops)
  | [], w, _ => Extends.refl w
  | o :: l, w, h => by
    have h1 : Extends w ((step e w o).toOption.getD w) := by
      cases hs : step e w o with
      | error x => exact Extends.refl w
      | ok w' => exact makes_extends e w w' o (h o List.mem_cons_self) hs
    exact h1.trans (run_extends e l _ (fun x hx => h x (List.mem_cons_of_mem _ hx)))

/-! ## Computing again -/

theorem linearField_ext (e : Env R P A) (w w' : World R P) (hx : Extends w w') (p : P) (o : MeshObj R P) (y : CF) (h : linearField e w p o = .ok y) : linearField e w' p o = .ok y := by
  obtain ⟨t, ht⟩ := hx.vals
  have hat : ∀ k v, w.attr o.attrs k = some v → w'.attr o.attrs k = some v := by
    intro k v hv
    unfold World.attr at hv ⊢
    obtain ⟨r, hr, hv⟩ := Option.bind_eq_some_iff.1 hv
    rw [hr, Option.bind_some, ht]
    exact append_old hv
  unfold linearField at h ⊢
  split at h
  · rename_i s u i h1 h2 h3
    rw [hat _ _ h1, hat _ _ h2, hat _ _ h3]
    exact h
  all_goals cases h

theorem origin_ext (e : Env R P A) (w w' : World R P) (hx : Extends w w') (m : Nat) (x : FieldObj R) (h : Origin e w m x) : Origin e w' m x := by
  obtain ⟨t, ht⟩ := hx.fields
  obtain ⟨s, hs'⟩ := hx.meshes
  induction h with
  | field m f o x h hs hf hu => exact .field m f o x (by rw [hs']; exact append_old h) hs (by rw [ht]; exact append_old hf) hu
  | linear m p o y h hs hy => exact .linear m p o y (by rw [hs']; exact append_old h) hs (linearField_ext e w w' hx p o y hy)
  | view m b o x h hs hb ih => exact .view m b o x (by rw [hs']; exact append_old h) hs ih

/-- **The same again**: whatever is made and computed in between, a mesh computes the same field, of the same attributes. -/
theorem compute_again (e : Env R P A) (w : World R P) (hw : w.WF) (ops : List (Op R P A)) (ho : ∀ o ∈ ops, makes o = true) (hw' : (run e w ops).WF) (m : Nat) (x : FieldObj R)
    (h : Origin e w m x) (mode : Mode) : computeField e (run e w ops) m (some mode) none = computeField e w m (some mode) none := by
  have hx := run_extends e ops w ho
  obtain ⟨o, hm⟩ := origin_mesh e w m x h
  obtain ⟨s, hs⟩ := hx.meshes
  have hm' : (run e w ops).meshes[m]? = some o := by rw [hs]; exact append_old hm
  have key : ∀ w1 : World R P, w1.WF → w1.meshes[m]? = some o → Origin e w1 m x → computeField e w1 m (some mode) none =
      .ok ⟨convert e mode (o.actions.foldl (Act.run e) (convert e ((o.actions.head?.map Act.mode).getD mode) x.data)), x.nmesh, x.box, x.attrs.update o.attrs⟩ := by
    intro w1 h1 h2 h3
    unfold computeField
    simp only [h2, toField_spec e w1 h1 m x h3, Except.bind, reshape, Except.map]
    rw [if_neg (fun hc => hc rfl)]
  rw [key w hw hm h, key _ hw' hm' (origin_ext e w _ hx m x h)]

/-! ## What is fixed for ever -/

theorem step_mesh (e : Env R P A) (w w' : World R P) (op : Op R P A) (h : step e w op = .ok w') (m : Nat) (o : MeshObj R P) (hm : w.meshes[m]? = some o) :
    ∃ o', w'.meshes[m]? = some o' ∧ o'.src = o.src ∧ o'.actions = o.actions ∧ o'.nmesh = o.nmesh ∧ o'.box = o.box := by
  by_cases hmk : makes op = true
  · obtain ⟨s, hs⟩ := (makes_extends e w w' op hmk h).meshes
    exact ⟨o, by rw [hs]; exact append_old hm, rfl, rfl, rfl, rfl⟩
  · cases op with
    | writeField f x =>
      simp only [step] at h
      split at h <;> first | (cases h; done) | (injection h with h; subst h; exact ⟨o, hm, rfl, rfl, rfl, rfl⟩)
    | setAttr n k v =>
      simp only [step] at h
      cases hn : w.meshes[n]? with
      | none => rw [hn] at h; cases h
      | some q =>
        rw [hn] at h
        injection h with h
        subst h
        by_cases hq : m = n
        · subst hq
          rw [hm] at hn
          injection hn with hn
          subst hn
          have hl : m < w.meshes.length := (List.getElem?_eq_some_iff.1 hm).1
          exact ⟨_, List.getElem?_set_self hl, rfl, rfl, rfl, rfl⟩
        · exact ⟨o, by dsimp only; rw [List.getElem?_set_ne (Ne.symm hq)]; exact hm, rfl, rfl, rfl, rfl⟩
    | setFieldAttr f k v =>
      simp only [step] at h
      split at h
      · cases h
      · injection h with h; subst h; exact ⟨o, hm, rfl, rfl, rfl, rfl⟩
    | writeAttr n k l =>
      simp only [step, writeVal] at h
      repeat' split at h
      all_goals first | (cases h; done) | (injection h with h; subst h; exact ⟨o, hm, rfl, rfl, rfl, rfl⟩)
    | writeFieldAttr f k l =>
      simp only [step, writeVal] at h
      repeat' split at h
      all_goals first | (cases h; done) | (injection h with h; subst h; exact ⟨o, hm, rfl, rfl, rfl, rfl⟩)
    | _ => exact absurd rfl hmk

/-- Actions, grid and box of a mesh never change, whatever is done to `attrs`. -/
theorem mesh_fixed (e : Env R P A) : ∀ (ops : List (Op R P A)) (w : World R P) (m : Nat) (o : MeshObj R P), w.meshes[m]? = some o →
    ∃ o', (run e w ops).meshes[m]? = some o' ∧ o'.src = o.src ∧ o'.actions = o.actions ∧ o'.nmesh = o.nmesh ∧ o'.box = o.box
  | [], _, _, o, h => ⟨o, h, rfl, rfl, rfl, rfl⟩
  | op :: l, w, m, o, h => by
    cases hs : step e w op with
    | error x =>
      have : run e w (op :: l) = run e w l := by simp [run, hs, Except.toOption]
      rw [this]
      exact mesh_fixed e l w m o h
    | ok w' =>
      have : run e w (op :: l) = run e w' l := by simp [run, hs, Except.toOption]
      rw [this]
      obtain ⟨o1, h1, a1, a2, a3, a4⟩ := step_mesh e w w' op hs m o h
      obtain ⟨o2, h2, b1, b2, b3, b4⟩ := mesh_fixed e l w' m o1 h1
      exact ⟨o2, h2, b1.trans a1, b2.trans a2, b3.trans a3, b4.trans a4⟩

/-- The values of a field change only when it is written to by its owner. -/
theorem field_untouched (e : Env R P A) (f : Nat) : ∀ (ops : List (Op R P A)) (w : World R P) (x : FieldObj R), w.fields[f]? = some x → (∀ y, .writeField f y ∉ ops) →
    ∃ x', (run e w ops).fields[f]? = some x' ∧ x'.data = x.data ∧ x'.nmesh = x.nmesh
  | [], _, x, h, _ => ⟨x, h, rfl, rfl⟩
  | op :: l, w, x, h, hn => by
    cases hs : step e w op with
    | error x' =>
      have : run e w (op :: l) = run e w l := by simp [run, hs, Except.toOption]
      rw [this]
      exact field_untouched e f l w x h (fun y hy => hn y (List.mem_cons_of_mem _ hy))
    | ok w' =>
      have : run e w (op :: l) = run e w' l := by simp [run, hs, Except.toOption]
      rw [this]
      have hstep : ∃ x1, w'.fields[f]? = some x1 ∧ x1.data = x.data ∧ x1.nmesh = x.nmesh := by
        by_cases hmk : makes op = true
        · obtain ⟨s, hs'⟩ := (makes_extends e w w' op hmk hs).fields
          exact ⟨x, by rw [hs']; exact append_old h, rfl, rfl⟩
        · cases op with
          | writeField g y =>
            have hg : f ≠ g := by
              rintro rfl
              exact hn y List.mem_cons_self
            simp only [step] at hs
            split at hs
            all_goals first
              | (cases hs; done)
              | (injection hs with hs; subst hs; exact ⟨x, by dsimp only; rw [List.getElem?_set_ne (Ne.symm hg)]; exact h, rfl, rfl⟩)
          | setAttr n k v =>
            simp only [step] at hs
            split at hs
            · cases hs
            · injection hs with hs; subst hs; exact ⟨x, h, rfl, rfl⟩
          | setFieldAttr g k v =>
            simp only [step] at hs
            cases hg : w.fields[g]? with
            | none => rw [hg] at hs; cases hs
            | some q =>
              rw [hg] at hs
              injection hs with hs
              subst hs
              by_cases hq : f = g
              · subst hq
                rw [h] at hg
                injection hg with hg
                subst hg
                exact ⟨_, List.getElem?_set_self (List.getElem?_eq_some_iff.1 h).1, rfl, rfl⟩
              · exact ⟨x, by dsimp only; rw [List.getElem?_set_ne (Ne.symm hq)]; exact h, rfl, rfl⟩
          | writeAttr n k l =>
            simp only [step, writeVal] at hs
            repeat' split at hs
            all_goals first | (cases hs; done) | (injection hs with hs; subst hs; exact ⟨x, h, rfl, rfl⟩)
          | writeFieldAttr g k l =>
            simp only [step, writeVal] at hs
            repeat' split at hs
            all_goals first | (cases hs; done) | (injection hs with hs; subst hs; exact ⟨x, h, rfl, rfl⟩)
          | _ => exact absurd rfl hmk
      obtain ⟨x1, h1, a1, a2⟩ := hstep
      obtain ⟨x2, h2, b1, b2⟩ := field_untouched e f l w' x1 h1 (fun y hy => hn y (List.mem_cons_of_mem _ hy))
      exact ⟨x2, h2, b1.trans a1, b2.trans a2⟩

end NBK.MeshObj
