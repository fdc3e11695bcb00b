import Verif.MeshObj.StateProps

/-!
# C122: the attributes of meshes and fields
-/
set_option linter.unusedSimpArgs false
namespace NBK.MeshObj

variable {R P A : Type}

/-! ## Well-formed programs -/

theorem wf_empty : (⟨[], [], []⟩ : World R P).WF :=
  ⟨by intro m o b h; simp at h, by intro m o f h; simp at h, by intro m o k r h; simp at h, by intro f o k r h; simp at h⟩

/-- Adding one mesh to a well-formed world. -/
theorem wf_add (w : World R P) (hw : w.WF) (fs : List (FieldObj R)) (o : MeshObj R P) (vals : List Val)
    (hfs : ∀ x ∈ fs, ∀ k, x.attrs k = none) (h1 : ∀ b, o.src = .view b → b < w.meshes.length) (h2 : ∀ f, o.src = .field f → f < (w.fields ++ fs).length)
    (h3 : ∀ k r, o.attrs k = some r → r < (w.vals ++ vals).length) : (⟨w.fields ++ fs, w.meshes ++ [o], w.vals ++ vals⟩ : World R P).WF := by
  have split : ∀ (m : Nat) (q : MeshObj R P), (w.meshes ++ [o])[m]? = some q → w.meshes[m]? = some q ∨ (m = w.meshes.length ∧ q = o) := by
    intro m q hq
    by_cases hm : m < w.meshes.length
    · left; rw [List.getElem?_append_left hm] at hq; exact hq
    · right
      rw [List.getElem?_append_right (Nat.le_of_not_lt hm)] at hq
      have : m - w.meshes.length = 0 := by
        by_contra hc
        rw [List.getElem?_eq_none (by simp; omega)] at hq
        cases hq
      rw [this] at hq
      simp at hq
      exact ⟨by omega, hq.symm⟩
  refine ⟨?_, ?_, ?_, ?_⟩
  · intro m q b hq hs
    rcases split m q hq with h | ⟨rfl, rfl⟩
    · exact hw.base m q b h hs
    · exact h1 b hs
  · intro m q f hq hs
    rcases split m q hq with h | ⟨rfl, rfl⟩
    · have := hw.field m q f h hs
      rw [List.length_append]; omega
    · exact h2 f hs
  · intro m q k r hq hr
    rcases split m q hq with h | ⟨rfl, rfl⟩
    · have := hw.mattr m q k r h hr
      rw [List.length_append]; omega
    · exact h3 k r hr
  · intro f x k r hx hr
    dsimp only at hx
    by_cases hf : f < w.fields.length
    · rw [List.getElem?_append_left hf] at hx
      have := hw.fattr f x k r hx hr
      rw [List.length_append]; omega
    · rw [List.getElem?_append_right (Nat.le_of_not_lt hf)] at hx
      rw [hfs x (List.mem_of_getElem? hx) k] at hr
      cases hr

theorem attrs_toReal (e : Env R P A) (w : World R P) (hw : w.WF) : ∀ (fuel m : Nat) (x : FieldObj R), toReal e w fuel m = .ok (some x) → ∀ k r, x.attrs k = some r → r < w.vals.length
  | 0, _, _, h => by cases h
  | fuel + 1, m, x, h => by
    simp only [toReal] at h
    split at h
    · cases h
    · rename_i o ho
      split at h
      · exact attrs_toReal e w hw fuel _ x h
      · cases h
      · split at h
        · cases h
        · rename_i y hy
          split at h
          · injection h with h
            injection h with h
            subst h
            intro k r hr
            unfold copyOf at hr
            dsimp only at hr
            split at hr
            · exact hw.fattr _ y k r hy hr
            · cases hr
          · cases h

theorem attrs_toComplex (e : Env R P A) (w : World R P) (hw : w.WF) : ∀ (fuel m : Nat) (x : FieldObj R), toComplex e w fuel m = .ok (some x) → ∀ k r, x.attrs k = some r → r < w.vals.length
  | 0, _, _, h => by cases h
  | fuel + 1, m, x, h => by
    simp only [toComplex] at h
    split at h
    · cases h
    · rename_i o ho
      split at h
      · exact attrs_toComplex e w hw fuel _ x h
      · rename_i p _
        cases hl : linearField e w p o with
        | error y => rw [hl] at h; cases h
        | ok y =>
          rw [hl] at h
          injection h with h
          injection h with h
          subst h
          intro k r hr
          exact hw.mattr m o k r ho hr
      · split at h
        · cases h
        · rename_i y hy
          split at h
          · injection h with h
            injection h with h
            subst h
            intro k r hr
            unfold copyOf at hr
            dsimp only at hr
            split at hr
            · exact hw.fattr _ y k r hy hr
            · cases hr
          · cases h

theorem attrs_toField (e : Env R P A) (w : World R P) (hw : w.WF) (m : Nat) (mode : Mode) (x : FieldObj R) (h : toField e w m mode = .ok x) : ∀ k r, x.attrs k = some r → r < w.vals.length := by
  have key : ∀ a b : Except Err (Option (FieldObj R)), (∀ y, a = .ok (some y) → ∀ k r, y.attrs k = some r → r < w.vals.length) →
      (∀ y, b = .ok (some y) → ∀ k r, y.attrs k = some r → r < w.vals.length) →
      (a.bind fun q => match q with
        | some f => .ok f
        | none => b.bind fun b => match b with
          | none => .error .assertionError
          | some f => .ok { f with data := convert e mode f.data }) = .ok x → ∀ k r, x.attrs k = some r → r < w.vals.length := by
    intro a b ha hb hx
    cases a with
    | error y => cases hx
    | ok q =>
      cases q with
      | some f => injection hx with hx; subst hx; exact ha f rfl
      | none =>
        cases b with
        | error y => cases hx
        | ok q =>
          cases q with
          | none => cases hx
          | some f => injection hx with hx; subst hx; exact hb f rfl
  cases mode with
  | real => exact key _ _ (attrs_toReal e w hw _ m) (attrs_toComplex e w hw _ m) h
  | complex => exact key _ _ (attrs_toComplex e w hw _ m) (attrs_toReal e w hw _ m) h

/-- All programs are well-formed. -/
theorem step_wf (e : Env R P A) (w w' : World R P) (hw : w.WF) (op : Op R P A) (h : step e w op = .ok w') : w'.WF := by
  have hnil : ∀ w : World R P, w.fields ++ [] = w.fields ∧ w.vals ++ [] = w.vals := fun w => ⟨List.append_nil _, List.append_nil _⟩
  cases op with
  | field f n b =>
    injection h with h
    subst h
    refine ⟨hw.base, ?_, hw.mattr, ?_⟩
    · intro m o f hm hs
      have := hw.field m o f hm hs
      simp; omega
    · intro g x k r hx hr
      dsimp only at hx
      by_cases hg : g < w.fields.length
      · rw [List.getElem?_append_left hg] at hx
        exact hw.fattr g x k r hx hr
      · rw [List.getElem?_append_right (Nat.le_of_not_lt hg)] at hx
        have := List.mem_of_getElem? hx
        simp at this
        subst this
        cases hr
  | fieldMesh f =>
    simp only [step, newFieldMesh] at h
    split at h
    · cases h
    · rename_i o ho
      cases hn : newMesh w (.field f) [] (some (.many o.nmesh)) (some (.many o.box)) with
      | error x => rw [hn] at h; cases h
      | ok r =>
        rw [hn] at h
        injection h with h
        subst h
        obtain ⟨o', t, hw', _, hs, _, hr⟩ := newMesh_spec w _ _ _ _ r.1 r.2 hn
        rw [hw'] at hr ⊢
        have := wf_add w hw [] o' t (by simp) (by intro b hb; rw [hs] at hb; cases hb) (by
          intro g hg; rw [hs] at hg; injection hg with hg; subst hg
          rw [List.append_nil]; exact (List.getElem?_eq_some_iff.1 ho).1) hr
        rwa [List.append_nil] at this
  | arrayMesh arrays root box kw =>
    simp only [step, newArrayMesh] at h
    split at h
    · cases h
    · rename_i a _
      cases hr : realArr e a with
      | error x => rw [hr] at h; cases h
      | ok r =>
        rw [hr] at h
        simp only [Except.bind] at h
        split at h
        · cases hb : boxOf r.1.length box with
          | error x => rw [hb] at h; cases h
          | ok b =>
            rw [hb] at h
            dsimp only at h
            generalize hw1 : ({ w with fields := w.fields ++ [⟨.re (e.load r.1 r.2), r.1, b, fun _ => none⟩] } : World R P) = w1 at h
            cases hn : newMesh w1 (.field w.fields.length) [] (some (.many r.1)) box with
            | error x => rw [hn] at h; cases h
            | ok q =>
              rw [hn] at h
              injection h with h
              subst h
              obtain ⟨o', t, hw', _, hs, _, hq⟩ := newMesh_spec w1 _ _ _ _ q.1 q.2 hn
              rw [hw'] at hq ⊢
              rw [← hw1] at hq ⊢
              exact wf_add w hw _ o' t (by intro x hx k; simp at hx; subst hx; rfl) (by intro b hb; rw [hs] at hb; cases hb) (by
                intro g hg; rw [hs] at hg; injection hg with hg; subst hg; simp) hq
        · cases h
  | linear p plin box nmesh seed draw u i r =>
    simp only [step, newLinear] at h
    cases hn : newMesh w (.linear p) (linearAttrs plin seed draw u i r) nmesh box with
    | error x => rw [hn] at h; cases h
    | ok q =>
      rw [hn] at h
      injection h with h
      subst h
      obtain ⟨o', t, hw', _, hs, _, hr⟩ := newMesh_spec w _ _ _ _ q.1 q.2 hn
      rw [hw'] at hr ⊢
      have := wf_add w hw [] o' t (by simp) (by intro b hb; rw [hs] at hb; cases hb) (by intro g hg; rw [hs] at hg; cases hg) hr
      rwa [List.append_nil] at this
  | view m =>
    simp only [step, view] at h
    split at h
    · cases h
    · rename_i o ho
      injection h with h
      subst h
      have := wf_add w hw [] ⟨.view m, o.actions, o.attrs, o.nmesh, o.box⟩ [] (by simp)
        (by intro b hb; injection hb with hb; subst hb; exact (List.getElem?_eq_some_iff.1 ho).1) (by intro g hg; cases hg)
        (by intro k r hr; rw [List.append_nil]; exact hw.mattr m o k r ho hr)
      rwa [List.append_nil, List.append_nil] at this
  | apply m func kind mode =>
    simp only [step, apply] at h
    cases hc : checkAct (func.resolve mode kind).1 (func.resolve mode kind).2.1 (func.resolve mode kind).2.2 with
    | error x => rw [hc] at h; cases h
    | ok a =>
      rw [hc] at h
      simp only [Except.bind] at h
      split at h
      · cases h
      · rename_i o ho
        injection h with h
        subst h
        have := wf_add w hw [] ⟨.view m, o.actions ++ [a], o.attrs, o.nmesh, o.box⟩ [] (by simp)
          (by intro b hb; injection hb with hb; subst hb; exact (List.getElem?_eq_some_iff.1 ho).1) (by intro g hg; cases hg)
          (by intro k r hr; rw [List.append_nil]; exact hw.mattr m o k r ho hr)
        rwa [List.append_nil, List.append_nil] at this
  | compute m mode n =>
    simp only [step] at h
    cases hc : computeField e w m mode n with
    | error x => rw [hc] at h; cases h
    | ok f =>
      rw [hc] at h
      injection h with h
      subst h
      have hf : ∀ k r, f.attrs k = some r → r < w.vals.length := by
        unfold computeField at hc
        split at hc
        · cases hc
        · rename_i mode
          split at hc
          · cases hc
          · rename_i o ho
            cases ht : toField e w m ((o.actions.head?.map Act.mode).getD mode) with
            | error x => rw [ht] at hc; cases hc
            | ok x =>
              rw [ht] at hc
              simp only [Except.bind] at hc
              cases hr : reshape o.nmesh n with
              | error y => rw [hr] at hc; cases hc
              | ok n' =>
                rw [hr] at hc
                have hat : f.attrs = x.attrs.update o.attrs := by
                  injection hc with hc
                  rw [← hc]
                  dsimp only
                  split <;> rfl
                intro k r hk
                rw [hat] at hk
                unfold Dict.update at hk
                cases hok : o.attrs k with
                | some r' =>
                  rw [hok] at hk
                  injection hk with hk
                  subst hk
                  exact hw.mattr m o k r' ho hok
                | none =>
                  rw [hok] at hk
                  exact attrs_toField e w hw m _ x ht k r hk
      refine ⟨hw.base, ?_, hw.mattr, ?_⟩
      · intro m o g hm hs
        have := hw.field m o g hm hs
        simp; omega
      · intro g x k r hx hr
        dsimp only at hx
        by_cases hg : g < w.fields.length
        · rw [List.getElem?_append_left hg] at hx
          exact hw.fattr g x k r hx hr
        · rw [List.getElem?_append_right (Nat.le_of_not_lt hg)] at hx
          have := List.mem_of_getElem? hx
          simp at this
          subst this
          exact hf k r hr
  | writeField f y =>
    simp only [step] at h
    have key : ∀ (d : Fld R) (x : FieldObj R), w.fields[f]? = some x → ({ w with fields := w.fields.set f ⟨d, x.nmesh, x.box, x.attrs⟩ } : World R P).WF := by
      intro d x hx
      refine ⟨hw.base, ?_, hw.mattr, ?_⟩
      · intro m o g hm hs
        have := hw.field m o g hm hs
        simp; omega
      · intro g z k r hz hr
        dsimp only at hz
        by_cases hg : f = g
        · subst hg
          rw [List.getElem?_set_self (List.getElem?_eq_some_iff.1 hx).1] at hz
          injection hz with hz
          subst hz
          exact hw.fattr f x k r hx hr
        · rw [List.getElem?_set_ne hg] at hz
          exact hw.fattr g z k r hz hr
    split at h
    · rename_i hx; injection h with h; subst h; exact key _ _ hx
    · rename_i hx; injection h with h; subst h; exact key _ _ hx
    · rename_i hx; injection h with h; subst h; exact key _ _ hx
    · cases h
  | setAttr m k v =>
    simp only [step] at h
    cases hm : w.meshes[m]? with
    | none => rw [hm] at h; cases h
    | some o =>
      rw [hm] at h
      injection h with h
      subst h
      have hl : m < w.meshes.length := (List.getElem?_eq_some_iff.1 hm).1
      have split : ∀ (n : Nat) (q : MeshObj R P), (w.meshes.set m { o with attrs := o.attrs.set k w.vals.length })[n]? = some q →
          (w.meshes[n]? = some q ∨ (n = m ∧ q = { o with attrs := o.attrs.set k w.vals.length })) := by
        intro n q hq
        by_cases hn : m = n
        · subst hn
          rw [List.getElem?_set_self hl] at hq
          injection hq with hq
          exact .inr ⟨rfl, hq.symm⟩
        · rw [List.getElem?_set_ne hn] at hq
          exact .inl hq
      refine ⟨?_, ?_, ?_, ?_⟩
      · intro n q b hq hs
        rcases split n q hq with h | ⟨rfl, rfl⟩
        · exact hw.base n q b h hs
        · exact hw.base n o b hm hs
      · intro n q f hq hs
        rcases split n q hq with h | ⟨rfl, rfl⟩
        · exact hw.field n q f h hs
        · exact hw.field n o f hm hs
      · intro n q k' r hq hr
        simp only [List.length_append, List.length_singleton]
        rcases split n q hq with h | ⟨rfl, rfl⟩
        · have := hw.mattr n q k' r h hr; omega
        · unfold Dict.set at hr
          dsimp only at hr
          split at hr
          · injection hr with hr; omega
          · have := hw.mattr n o k' r hm hr; omega
      · intro f x k' r hx hr
        have := hw.fattr f x k' r hx hr
        simp; omega
  | setFieldAttr f k v =>
    simp only [step] at h
    cases hm : w.fields[f]? with
    | none => rw [hm] at h; cases h
    | some o =>
      rw [hm] at h
      injection h with h
      subst h
      have hl : f < w.fields.length := (List.getElem?_eq_some_iff.1 hm).1
      refine ⟨hw.base, ?_, ?_, ?_⟩
      · intro n q g hq hs
        have := hw.field n q g hq hs
        simpa using this
      · intro n q k' r hq hr
        have := hw.mattr n q k' r hq hr
        simp; omega
      · intro g x k' r hx hr
        simp only [List.length_append, List.length_singleton]
        dsimp only at hx
        by_cases hg : f = g
        · subst hg
          rw [List.getElem?_set_self hl] at hx
          injection hx with hx
          subst hx
          unfold Dict.set at hr
          dsimp only at hr
          split at hr
          · injection hr with hr; omega
          · have := hw.fattr f o k' r hm hr; omega
        · rw [List.getElem?_set_ne hg] at hx
          have := hw.fattr g x k' r hx hr; omega
  | writeAttr m k l =>
    simp only [step, writeVal] at h
    repeat' split at h
    all_goals first
      | (cases h; done)
      | (injection h with h
         subst h
         exact ⟨hw.base, hw.field, by intro n q k' r hq hr; simpa using hw.mattr n q k' r hq hr, by intro n q k' r hq hr; simpa using hw.fattr n q k' r hq hr⟩)
  | writeFieldAttr f k l =>
    simp only [step, writeVal] at h
    repeat' split at h
    all_goals first
      | (cases h; done)
      | (injection h with h
         subst h
         exact ⟨hw.base, hw.field, by intro n q k' r hq hr; simpa using hw.mattr n q k' r hq hr, by intro n q k' r hq hr; simpa using hw.fattr n q k' r hq hr⟩)

theorem run_wf (e : Env R P A) : ∀ (ops : List (Op R P A)) (w : World R P), w.WF → (run e w ops).WF
  | [], _, h => h
  | o :: l, w, h => by
    have : ((step e w o).toOption.getD w).WF := by
      cases hs : step e w o with
      | error x => exact h
      | ok w' => exact step_wf e w w' h o hs
    exact run_wf e l _ this

/-! ## Dictionaries are copied, arrays are shared -/

/-- Setting an attribute of a mesh changes no other mesh and no field. -/
theorem setAttr_local (e : Env R P A) (w w' : World R P) (hw : w.WF) (m : Nat) (k : String) (v : Val) (h : step e w (.setAttr m k v) = .ok w') :
    (∃ o, w'.meshes[m]? = some o ∧ w'.attr o.attrs k = some v) ∧
    (∀ (n : Nat) (o : MeshObj R P) (k' : String), n ≠ m → w.meshes[n]? = some o → ∃ o', w'.meshes[n]? = some o' ∧ w'.attr o'.attrs k' = w.attr o.attrs k') ∧
    (∀ (f : Nat) (x : FieldObj R) (k' : String), w.fields[f]? = some x → ∃ x', w'.fields[f]? = some x' ∧ w'.attr x'.attrs k' = w.attr x.attrs k') := by
  simp only [step] at h
  cases hm : w.meshes[m]? with
  | none => rw [hm] at h; cases h
  | some o =>
    rw [hm] at h
    injection h with h
    subst h
    have hl : m < w.meshes.length := (List.getElem?_eq_some_iff.1 hm).1
    have hold : ∀ (d : Dict) (k' : String), (∀ r, d k' = some r → r < w.vals.length) → (d k').bind (fun r => (w.vals ++ [v])[r]?) = (d k').bind fun r => w.vals[r]? := by
      intro d k' hd
      cases hk : d k' with
      | none => rfl
      | some r =>
        rw [Option.bind_some, Option.bind_some, List.getElem?_append_left (hd r hk)]
    refine ⟨⟨_, List.getElem?_set_self hl, ?_⟩, ?_, ?_⟩
    · simp [World.attr, Dict.set]
    · intro n q k' hn hq
      refine ⟨q, by dsimp only; rw [List.getElem?_set_ne (Ne.symm hn)]; exact hq, ?_⟩
      exact hold q.attrs k' (fun r hr => hw.mattr n q k' r hq hr)
    · intro f x k' hx
      exact ⟨x, hx, hold x.attrs k' (fun r hr => hw.fattr f x k' r hx hr)⟩

/-- **Arrays are shared**: writing into an array of `attrs` of a view changes `attrs` of the mesh. -/
theorem view_shares (e : Env R P A) (w w1 w2 : World R P) (m v : Nat) (o : MeshObj R P) (k : String) (l : List ℚ) (ho : w.meshes[m]? = some o)
    (h1 : view w m = .ok (w1, v)) (h2 : step e w1 (.writeAttr v k l) = .ok w2) : w2.meshes[m]? = some o ∧ w2.attr o.attrs k = some (.arr l) := by
  unfold view at h1
  rw [ho] at h1
  injection h1 with h1
  injection h1 with h1 hv
  subst h1 hv
  simp only [step, List.getElem?_concat_length] at h2
  unfold writeVal at h2
  cases hk : o.attrs k with
  | none => rw [hk] at h2; cases h2
  | some r =>
    rw [hk] at h2
    dsimp only at h2
    split at h2
    · rename_i old hold
      split at h2
      · injection h2 with h2
        subst h2
        refine ⟨append_old ho, ?_⟩
        unfold World.attr
        rw [hk, Option.bind_some]
        exact List.getElem?_set_self (List.getElem?_eq_some_iff.1 hold).1
      · cases h2
    · cases h2

/-- Likewise the arrays of `attrs` of a computed field are those of the mesh. -/
theorem result_shares (e : Env R P A) (w w1 w2 : World R P) (m : Nat) (o : MeshObj R P) (ho : w.meshes[m]? = some o) (mode : Mode) (k : String) (l : List ℚ) (hk : (o.attrs k).isSome)
    (h1 : step e w (.compute m (some mode) none) = .ok w1) (h2 : step e w1 (.writeFieldAttr w.fields.length k l) = .ok w2) :
    w2.meshes[m]? = some o ∧ w2.attr o.attrs k = some (.arr l) := by
  simp only [step] at h1
  cases hc : computeField e w m (some mode) none with
  | error x => rw [hc] at h1; cases h1
  | ok f =>
    rw [hc] at h1
    injection h1 with h1
    subst h1
    have hat : f.attrs k = o.attrs k := by
      unfold computeField at hc
      simp only [ho] at hc
      cases ht : toField e w m ((o.actions.head?.map Act.mode).getD mode) with
      | error x => rw [ht] at hc; cases hc
      | ok x =>
        rw [ht] at hc
        simp only [Except.bind, reshape, Except.map] at hc
        injection hc with hc
        rw [← hc, if_neg (fun h => h rfl)]
        dsimp only [Dict.update]
        cases hq : o.attrs k with
        | none => rw [hq] at hk; cases hk
        | some r => rfl
    simp only [step, List.getElem?_concat_length] at h2
    unfold writeVal at h2
    rw [hat] at h2
    cases hq : o.attrs k with
    | none => rw [hq] at hk; cases hk
    | some r =>
      rw [hq] at h2
      dsimp only at h2
      split at h2
      · rename_i old hold
        split at h2
        · injection h2 with h2
          subst h2
          refine ⟨ho, ?_⟩
          unfold World.attr
          rw [hq, Option.bind_some]
          exact List.getElem?_set_self (List.getElem?_eq_some_iff.1 hold).1
        · cases h2
      · cases h2

/-- A field computed with another `Nmesh` reports the old one. -/
theorem resampled_reports (e : Env R P A) (w : World R P) (hw : w.WF) (m : Nat) (o : MeshObj R P) (ho : w.meshes[m]? = some o) (x : FieldObj R) (h : Origin e w m x) (mode : Mode)
    (hat : w.attr o.attrs "Nmesh" = some (.arr (o.nmesh.map fun (i : Nat) => (i : ℚ)))) (n : List Nat) (hl : n.length = o.nmesh.length) (hn : n ≠ o.nmesh) :
    ∃ g, computeField e w m (some mode) (some (.many n)) = .ok g ∧ g.nmesh = n ∧ w.attr g.attrs "Nmesh" ≠ some (.arr (g.nmesh.map fun (i : Nat) => (i : ℚ))) := by
  obtain ⟨f, _, _, _, _, hattr, hres⟩ := compute_spec e w hw m o ho x h mode
  obtain ⟨g, hg, _, hgn, hga⟩ := hres n hl hn
  refine ⟨g, hg, hgn, ?_⟩
  have : w.attr g.attrs "Nmesh" = some (.arr (o.nmesh.map fun (i : Nat) => (i : ℚ))) := by
    rw [← hat]
    unfold World.attr at hat ⊢
    rw [hga, hattr "Nmesh"]
    cases hq : o.attrs "Nmesh" with
    | none => rw [hq] at hat; cases hat
    | some r => rfl
  rw [this, hgn]
  intro hc
  injection hc with hc
  injection hc with hc
  apply hn
  have hinj : Function.Injective (fun (i : Nat) => (i : ℚ)) := fun a b hab => Nat.cast_injective (R := ℚ) hab
  exact (List.map_injective_iff.2 hinj hc).symm

/-! ## `ArrayMesh` -/

/-- Only the array of the root is used, and the keywords are not. -/
theorem array_root (e : Env R P A) (w : World R P) (a b : List (NpArr A)) (root : Nat) (box : Option (Arg ℚ)) (kw kw' : List (String × Val)) (h : a[root]? = b[root]?) :
    newArrayMesh e w a root box kw = newArrayMesh e w b root box kw' := by
  unfold newArrayMesh
  rw [h]

/-- **`ArrayMesh(array, BoxSize, **kwargs)`** of real numbers: the array in real space, and `attrs` has the box and the shape, none of the keywords. -/
theorem array_spec (e : Env R P A) (w : World R P) (arrays : List (NpArr A)) (root : Nat) (a : NpArr A) (ha : arrays[root]? = some a) (hr : a.isComplex = false)
    (hd : a.shape.length = 2 ∨ a.shape.length = 3) (L : ℚ) (kw : List (String × Val)) :
    ∃ w' o x, newArrayMesh e w arrays root (some (.one L)) kw = .ok (w', w.meshes.length) ∧ w'.meshes = w.meshes ++ [o] ∧ o.src = .field w.fields.length ∧
      w'.fields = w.fields ++ [x] ∧ x.data = .re (e.load a.shape a.data) ∧ o.nmesh = a.shape ∧ o.box = List.replicate a.shape.length L ∧
      w'.attr o.attrs "BoxSize" = some (.arr (List.replicate a.shape.length L)) ∧ w'.attr o.attrs "Nmesh" = some (.arr (a.shape.map fun (i : Nat) => (i : ℚ))) ∧
      ∀ k, k ≠ "BoxSize" → k ≠ "Nmesh" → w'.attr o.attrs k = none := by
  unfold newArrayMesh
  rw [ha]
  simp only [realArr, hr, Bool.false_eq_true, if_false, Except.bind, if_pos hd, boxOf, newMesh, shapeOf, Option.isNone_some, or_self, Except.map]
  refine ⟨_, _, _, rfl, rfl, rfl, rfl, rfl, rfl, rfl, ?_, ?_, ?_⟩
  · simp [alloc, World.attr, Dict.set]
  · simp [alloc, World.attr, Dict.set]
  · intro k h1 h2
    simp [alloc, World.attr, Dict.set, h1, h2]

/-- Complex arrays with an even last side come back with the sides they were transformed from; an odd last side loses one cell. -/
theorem array_complex (l : List Nat) (n : Nat) : irShape (l ++ [n / 2 + 1]) = l ++ [if n % 2 = 0 then n else n - 1] := by
  unfold irShape
  rw [List.dropLast_concat, List.getLastD_concat]
  congr 2
  split <;> omega

/-- A box of several lengths is accepted if it has one for each axis, and then these are the lengths of the mesh; otherwise no mesh is made. -/
theorem box_lengths (w : World R P) (p : P) (plin : List (String × Val)) (l : List ℚ) (n : List Nat) (seed : Option ℚ) (draw : ℚ) (u i : Bool) (r : Option Bool) (h1 : l.length ≠ 1) :
    (l.length ≠ n.length → newLinear w p plin (some (.many l)) (some (.many n)) seed draw u i r = .error .valueError) ∧
    (l.length = n.length → ∃ w' o, newLinear w p plin (some (.many l)) (some (.many n)) seed draw u i r = .ok (w', w.meshes.length) ∧
      w'.meshes[w.meshes.length]? = some o ∧ o.box = l ∧ o.nmesh = n) := by
  have hb : boxOf n.length (some (.many l)) = if l.length = n.length then .ok l else .error .valueError := by
    match l, h1 with
    | [], _ => rfl
    | [_], h => exact absurd rfl h
    | _ :: _ :: _, _ => rfl
  constructor
  · intro h
    simp [newLinear, newMesh, shapeOf, Except.bind, hb, if_neg h, Except.map]
  · intro h
    rw [if_pos h] at hb
    refine ⟨_, ⟨.linear p, [], (alloc w.vals (fun _ => none) (linearAttrs plin seed draw u i r ++ [("BoxSize", .arr l), ("Nmesh", .arr (n.map fun (i : Nat) => (i : ℚ)))])).2, n, l⟩,
      by simp only [newLinear, newMesh, shapeOf, Except.bind, hb, Except.map, Option.isNone_some, Bool.false_eq_true, or_self, if_false]; rfl, ?_, rfl, rfl⟩
    simp

/-- Writing to the array of an attribute changes its numbers, not how many there are. -/
theorem write_length (e : Env R P A) (w w' : World R P) (m : Nat) (k : String) (l : List ℚ) (o : MeshObj R P) (hm : w.meshes[m]? = some o) (old : List ℚ)
    (ha : w.attr o.attrs k = some (.arr old)) :
    (step e w (.writeAttr m k l) = .ok w' → l.length = old.length) ∧ (l.length ≠ old.length → step e w (.writeAttr m k l) = .error .valueError) := by
  unfold World.attr at ha
  cases hd : o.attrs k with
  | none => rw [hd] at ha; exact absurd ha (by simp)
  | some r =>
    rw [hd] at ha
    have hv : w.vals[r]? = some (.arr old) := ha
    have hw : step e w (.writeAttr m k l) = if l.length = old.length then .ok { w with vals := w.vals.set r (.arr l) } else .error .valueError := by
      simp only [step, writeVal, hm, hd, hv]
    rw [hw]
    constructor
    · intro h
      by_contra hc
      rw [if_neg hc] at h
      cases h
    · intro h
      rw [if_neg h]

end NBK.MeshObj
