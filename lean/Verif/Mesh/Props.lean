import Verif.Mesh.Model

/-! # Mesh views and actions: property C31 -/
set_option linter.unusedSimpArgs false
namespace NBK.Mesh
variable {R C : Type}

/-- Specification: a mesh is a base field and a list of actions, without any sharing. -/
structure Spec (R C : Type) where
  field : Fld R C
  acts : List (Act R C)

/-- Specification: the field seen in configuration space. -/
def asReal (c2r : C → R) : Fld R C → R
  | .re x => x
  | .co y => c2r y

/-- Specification: the field seen in Fourier space. -/
def asComplex (r2c : R → C) : Fld R C → C
  | .re x => r2c x
  | .co y => y

/-- Specification: an action, in its own space. -/
def specAct (r2c : R → C) (c2r : C → R) (f : Fld R C) : Act R C → Fld R C
  | .re g => .re (g (asReal c2r f))
  | .co g => .co (g (asComplex r2c f))

/-- Specification of the field painted from a mesh: all actions in order, each in its own space, then the requested space. -/
def painted (r2c : R → C) (c2r : C → R) (s : Spec R C) (mode : Mode) : Fld R C :=
  let f := s.acts.foldl (specAct r2c c2r) s.field
  match mode with
  | .real => .re (asReal c2r f)
  | .complex => .co (asComplex r2c f)

/-- Specification of a program: the list of the meshes made so far. -/
def specStep (S : List (Spec R C)) : Op R C → List (Spec R C)
  | .new f comp => S ++ [⟨f, comp⟩]
  | .apply m a => match S[m]? with
    | some s => S ++ [⟨s.field, s.acts ++ [a]⟩]
    | none => S
  | .compute _ _ => S

def specRun (ops : List (Op R C)) : List (Spec R C) := ops.foldl specStep []

theorem applyFld_eq (r2c : R → C) (c2r : C → R) :
    (fun (f : Fld R C) a => applyFld a (convert r2c c2r a.mode f)) = specAct r2c c2r := by
  funext f a
  cases f <;> cases a <;> rfl

theorem painted_eq (r2c : R → C) (c2r : C → R) (s : Spec R C) (mode : Mode) : painted r2c c2r s mode =
    convert r2c c2r mode (s.acts.foldl (fun f a => applyFld a (convert r2c c2r a.mode f)) s.field) := by
  rw [applyFld_eq]
  unfold painted
  generalize s.acts.foldl (specAct r2c c2r) s.field = f
  cases f <;> cases mode <;> rfl

/-- The invariant relating the heap to the specification. -/
structure Inv (h : Heap R C) (S : List (Spec R C)) : Prop where
  len : h.objs.length = S.length
  ok : ∀ (m : Nat) (s : Spec R C), S[m]? = some s → ∃ o, h.objs[m]? = some o ∧ actionsOf o = s.acts ∧
    ∀ fuel, m < fuel → ∃ b, sourceBuf h.objs fuel m = some b ∧ h.bufs[b]? = some s.field

theorem sourceBuf_append (objs : List (Obj R C)) (o : Obj R C) (fuel m b : Nat) (h : sourceBuf objs fuel m = some b) :
    sourceBuf (objs ++ [o]) fuel m = some b := by
  induction fuel generalizing m with
  | zero => cases h
  | succ fuel ih =>
    unfold sourceBuf at h ⊢
    cases hm : objs[m]? with
    | none => rw [hm] at h; cases h
    | some x =>
      have hlt := (List.getElem?_eq_some_iff.mp hm).1
      rw [List.getElem?_append_left hlt, hm]
      rw [hm] at h
      cases x with
      | source b' c w => exact h
      | view base w => exact ih base h

/-- Nothing happens to buffers other than the one painted. -/
theorem actions_frame (r2c : R → C) (c2r : C → R) (acts : List (Act R C)) (pre : List (Fld R C)) (f : Fld R C) :
    acts.foldl (actOn r2c c2r pre.length) (pre ++ [f]) =
      pre ++ [acts.foldl (fun f a => applyFld a (convert r2c c2r a.mode f)) f] := by
  induction acts generalizing f with
  | nil => rfl
  | cons a acts ih =>
    have : actOn r2c c2r pre.length (pre ++ [f]) a = pre ++ [applyFld a (convert r2c c2r a.mode f)] := by
      unfold actOn
      simp
    rw [List.foldl_cons, List.foldl_cons, this, ih]

theorem convert_idem (r2c : R → C) (c2r : C → R) (m : Mode) (f : Fld R C) :
    convert r2c c2r m (convert r2c c2r m f) = convert r2c c2r m f := by
  cases f <;> cases m <;> rfl

/-- The painted field starts from the field in the mode of the first action. -/
theorem painted_first (r2c : R → C) (c2r : C → R) (f : Fld R C) (acts : List (Act R C)) (mode : Mode) :
    painted r2c c2r ⟨convert r2c c2r (firstMode acts mode) f, acts⟩ mode =
      painted r2c c2r ⟨f, acts⟩ mode := by
  simp only [painted_eq]
  cases acts with
  | nil => exact convert_idem r2c c2r mode f
  | cons a acts => simp only [firstMode, List.foldl_cons, convert_idem]

/-- What `compute` does on a heap satisfying the invariant. -/
theorem compute_spec (r2c : R → C) (c2r : C → R) (h : Heap R C) (S : List (Spec R C)) (hi : Inv h S) (m : Nat)
    (s : Spec R C) (hs : S[m]? = some s) (mode : Mode) :
    compute r2c c2r h m mode = .ok (⟨h.bufs ++ [painted r2c c2r s mode], h.objs⟩, h.bufs.length) := by
  obtain ⟨o, h1, h2, h3⟩ := hi.ok m s hs
  have hm := (List.getElem?_eq_some_iff.mp h1).1
  obtain ⟨b, h4, h5⟩ := h3 (h.objs.length + 1) (by omega)
  unfold compute toField
  rw [h1]
  simp only [h2, h4, h5]
  rw [actions_frame]
  simp only [List.getElem?_append_right (Nat.le_refl _), Nat.sub_self, List.getElem?_cons_zero]
  rw [List.set_append_right _ _ (Nat.le_refl _)]
  simp only [Nat.sub_self, List.set_cons_zero]
  have := painted_first r2c c2r s.field s.acts mode
  simp only [painted_eq] at this ⊢
  rw [this]

theorem inv_bufs (h : Heap R C) (S : List (Spec R C)) (hi : Inv h S) (extra : List (Fld R C)) :
    Inv ⟨h.bufs ++ extra, h.objs⟩ S := by
  refine ⟨hi.len, ?_⟩
  intro m s hs
  obtain ⟨o, h1, h2, h3⟩ := hi.ok m s hs
  refine ⟨o, h1, h2, ?_⟩
  intro fuel hf
  obtain ⟨b, h4, h5⟩ := h3 fuel hf
  have := (List.getElem?_eq_some_iff.mp h5).1
  exact ⟨b, h4, by rw [List.getElem?_append_left this]; exact h5⟩

theorem inv_step (r2c : R → C) (c2r : C → R) (h : Heap R C) (S : List (Spec R C)) (hi : Inv h S) (op : Op R C) :
    Inv (stepOp r2c c2r h op) (specStep S op) := by
  cases op with
  | new f comp =>
    simp only [stepOp, newSource, specStep]
    refine ⟨by simp [hi.len], ?_⟩
    intro m s hs
    by_cases hm : m < S.length
    · rw [List.getElem?_append_left hm] at hs
      obtain ⟨o, h1, h2, h3⟩ := hi.ok m s hs
      refine ⟨o, by rw [List.getElem?_append_left (by rw [hi.len]; exact hm)]; exact h1, h2, ?_⟩
      intro fuel hf
      obtain ⟨b, h4, h5⟩ := h3 fuel hf
      have := (List.getElem?_eq_some_iff.mp h5).1
      exact ⟨b, sourceBuf_append _ _ _ _ _ h4, by rw [List.getElem?_append_left this]; exact h5⟩
    · rw [List.getElem?_append_right (by omega)] at hs
      obtain ⟨k, hk⟩ : ∃ k, m - S.length = k := ⟨_, rfl⟩
      cases k with
      | succ k => rw [hk] at hs; simp at hs
      | zero =>
        rw [hk] at hs
        simp at hs
        subst hs
        have hmo : m = h.objs.length := by rw [hi.len]; omega
        subst hmo
        refine ⟨.source h.bufs.length comp [], by simp, by simp [actionsOf], ?_⟩
        intro fuel hf
        cases fuel with
        | zero => omega
        | succ fuel => exact ⟨h.bufs.length, by simp [sourceBuf], by simp⟩
  | apply m' a =>
    simp only [stepOp, apply, specStep]
    cases hS : S[m']? with
    | none =>
      have : h.objs[m']? = none := by
        rw [List.getElem?_eq_none_iff, hi.len]
        exact List.getElem?_eq_none_iff.mp hS
      rw [this]
      exact hi
    | some s' =>
      obtain ⟨o', g1, g2, g3⟩ := hi.ok m' s' hS
      rw [g1]
      simp only
      have hm' := (List.getElem?_eq_some_iff.mp g1).1
      refine ⟨by simp [hi.len], ?_⟩
      intro m s hs
      by_cases hm : m < S.length
      · rw [List.getElem?_append_left hm] at hs
        obtain ⟨o, h1, h2, h3⟩ := hi.ok m s hs
        refine ⟨o, by rw [List.getElem?_append_left (by rw [hi.len]; exact hm)]; exact h1, h2, ?_⟩
        intro fuel hf
        obtain ⟨b, h4, h5⟩ := h3 fuel hf
        exact ⟨b, sourceBuf_append _ _ _ _ _ h4, h5⟩
      · rw [List.getElem?_append_right (by omega)] at hs
        obtain ⟨k, hk⟩ : ∃ k, m - S.length = k := ⟨_, rfl⟩
        cases k with
        | succ k => rw [hk] at hs; simp at hs
        | zero =>
          rw [hk] at hs
          simp at hs
          subst hs
          have hmo : m = h.objs.length := by rw [hi.len]; omega
          subst hmo
          refine ⟨.view m' (actionsOf o' ++ [a]), by simp, (by show actionsOf o' ++ [a] = s'.acts ++ [a]; rw [g2]), ?_⟩
          intro fuel hf
          cases fuel with
          | zero => omega
          | succ fuel =>
            obtain ⟨b, h4, h5⟩ := g3 fuel (by omega)
            refine ⟨b, ?_, h5⟩
            unfold sourceBuf
            simp only [List.getElem?_append_right (Nat.le_refl _), Nat.sub_self, List.getElem?_cons_zero]
            exact sourceBuf_append _ _ _ _ _ h4
  | compute m mode =>
    simp only [stepOp, specStep]
    cases hS : S[m]? with
    | none =>
      have : h.objs[m]? = none := by
        rw [List.getElem?_eq_none_iff, hi.len]
        exact List.getElem?_eq_none_iff.mp hS
      have hc : compute r2c c2r h m mode = .error .badHandle := by unfold compute; rw [this]
      rw [hc]
      exact hi
    | some s =>
      rw [compute_spec r2c c2r h S hi m s hS mode]
      exact inv_bufs h S hi _

theorem inv_run (r2c : R → C) (c2r : C → R) (ops : List (Op R C)) : Inv (run r2c c2r ops) (specRun ops) := by
  unfold run specRun
  have : ∀ (h : Heap R C) (S : List (Spec R C)), Inv h S → Inv (ops.foldl (stepOp r2c c2r) h) (ops.foldl specStep S) := by
    induction ops with
    | nil => intro h S hi; exact hi
    | cons op ops ih => intro h S hi; exact ih _ _ (inv_step r2c c2r h S hi op)
  exact this _ _ ⟨rfl, by simp⟩

/-- C31: after any program (making sources, applying actions to meshes or views of views, painting any of them any number of
times), painting mesh `m` gives exactly its actions, in order and each in its own space, on the base field it was derived
from, in the requested space. In particular earlier paintings and later views have no influence. -/
theorem paint_eq (r2c : R → C) (c2r : C → R) (ops : List (Op R C)) (m : Nat) (s : Spec R C) (hs : (specRun ops)[m]? = some s)
    (mode : Mode) :
    ∃ h' v, compute r2c c2r (run r2c c2r ops) m mode = .ok (h', v) ∧ h'.bufs[v]? = some (painted r2c c2r s mode) := by
  rw [compute_spec r2c c2r _ _ (inv_run r2c c2r ops) m s hs mode]
  exact ⟨_, _, rfl, by simp⟩

/-- C31: `apply` on a mesh appends the action to a new mesh; the original, and every other mesh, paints as before. -/
theorem apply_new (r2c : R → C) (c2r : C → R) (ops : List (Op R C)) (m : Nat) (s : Spec R C) (a : Act R C)
    (hs : (specRun ops)[m]? = some s) :
    ∃ h' m', apply (run r2c c2r ops) m a = .ok (h', m') ∧
      (∀ mode, ∃ h'' v, compute r2c c2r h' m' mode = .ok (h'', v) ∧
        h''.bufs[v]? = some (painted r2c c2r ⟨s.field, s.acts ++ [a]⟩ mode)) ∧
      ∀ (k : Nat) (t : Spec R C), (specRun ops)[k]? = some t → ∀ mode, ∃ h'' v, compute r2c c2r h' k mode = .ok (h'', v) ∧
        h''.bufs[v]? = some (painted r2c c2r t mode) := by
  have hi := inv_run r2c c2r ops
  obtain ⟨o, g1, g2, g3⟩ := hi.ok m s hs
  have hstep := inv_step r2c c2r _ _ hi (.apply m a)
  have ha : apply (run r2c c2r ops) m a = .ok (⟨(run r2c c2r ops).bufs,
      (run r2c c2r ops).objs ++ [.view m (actionsOf o ++ [a])]⟩, (run r2c c2r ops).objs.length) := by
    unfold apply; rw [g1]
  simp only [stepOp, ha, specStep, hs] at hstep
  refine ⟨_, _, ha, ?_, ?_⟩
  · intro mode
    have := compute_spec r2c c2r _ _ hstep (run r2c c2r ops).objs.length ⟨s.field, s.acts ++ [a]⟩
      (by rw [hi.len]; simp) mode
    exact ⟨_, _, this, by simp⟩
  · intro k t ht mode
    have hk := (List.getElem?_eq_some_iff.mp ht).1
    have := compute_spec r2c c2r _ _ hstep k t (by rw [List.getElem?_append_left hk]; exact ht) mode
    exact ⟨_, _, this, by simp⟩

/-- C31: painting does not modify any field held by a mesh. -/
theorem paint_keeps (r2c : R → C) (c2r : C → R) (ops : List (Op R C)) (m : Nat) (s : Spec R C)
    (hs : (specRun ops)[m]? = some s) (mode : Mode) (h' : Heap R C) (v : Nat)
    (hc : compute r2c c2r (run r2c c2r ops) m mode = .ok (h', v)) :
    (∀ (b : Nat) (f : Fld R C), (run r2c c2r ops).bufs[b]? = some f → h'.bufs[b]? = some f ∧ b ≠ v) ∧
    h'.objs = (run r2c c2r ops).objs := by
  rw [compute_spec r2c c2r _ _ (inv_run r2c c2r ops) m s hs mode] at hc
  simp only [Except.ok.injEq, Prod.mk.injEq] at hc
  obtain ⟨rfl, rfl⟩ := hc
  refine ⟨?_, rfl⟩
  intro b f hb
  have := (List.getElem?_eq_some_iff.mp hb).1
  exact ⟨by rw [List.getElem?_append_left this]; exact hb, by omega⟩

/-- Non-vacuity: a real source with a compensation filter, a view with a real action, a view of the view with a complex
action, painted in between; transforms are ×2 and −1 to make the order visible. -/
example : (specRun (R := Int) (C := Int)
      [.new (.re 5) [.co (· + 1)], .apply 0 (.re (· * 3)), .compute 1 .real, .apply 1 (.co (· - 7))])[2]?.map
        (fun s => painted (· * 2) (· - 1) s .real) = some (.re 52) := by decide

end NBK.Mesh
