import Verif.MeshObj.AttrProps

/-!
# C122: seeds of views, functions that are accepted, concrete programs
-/
set_option linter.unusedSimpArgs false
namespace NBK.MeshObj

variable {R P A : Type}

/-! ## Views of a linear mesh -/

/-- Views and their bases have the same entry of a key. -/
def Agree (k : String) (w : World R P) : Prop :=
  ∀ (m b : Nat) (o q : MeshObj R P), w.meshes[m]? = some o → o.src = .view b → w.meshes[b]? = some q → o.attrs k = q.attrs k

theorem agree_add (k : String) (w : World R P) (hw : w.WF) (ha : Agree k w) (fs : List (FieldObj R)) (vals : List Val) (o : MeshObj R P)
    (ho : ∀ b q, o.src = .view b → w.meshes[b]? = some q → o.attrs k = q.attrs k) (hb : ∀ b, o.src = .view b → b < w.meshes.length) : Agree k (⟨fs, w.meshes ++ [o], vals⟩ : World R P) := by
  intro m b x q hx hs hq
  dsimp only at hx hq
  by_cases hm : m < w.meshes.length
  · rw [List.getElem?_append_left hm] at hx
    have := hw.base m x b hx hs
    rw [List.getElem?_append_left (by omega)] at hq
    exact ha m b x q hx hs hq
  · rw [List.getElem?_append_right (Nat.le_of_not_lt hm)] at hx
    have := List.mem_of_getElem? hx
    simp only [List.mem_singleton] at this
    subst this
    rw [List.getElem?_append_left (hb b hs)] at hq
    exact ho b q hs hq

/-- An assignment to an attribute of this name. -/
def sets (k : String) : Op R P A → Bool
  | .setAttr _ k' _ => k' = k
  | _ => false

theorem agree_step (e : Env R P A) (k : String) (w w' : World R P) (hw : w.WF) (ha : Agree k w) (op : Op R P A) (hk : sets k op = false) (h : step e w op = .ok w') : Agree k w' := by
  have hnew : ∀ (src : Src P) (pre : List (String × Val)) (n : Option (Arg Nat)) (b : Option (Arg ℚ)) (w1 : World R P) (r : World R P × Nat), w1.meshes = w.meshes → newMesh w1 src pre n b = .ok r →
      (∀ b, src ≠ .view b) → Agree k r.1 := by
    intro src pre n b w1 r h1 hr hs
    obtain ⟨o', t, hw', _, hsrc, _, _⟩ := newMesh_spec w1 _ _ _ _ r.1 r.2 hr
    rw [hw', h1]
    exact agree_add k w hw ha _ _ o' (by intro b q hb; exact absurd (hsrc.symm.trans hb) (hs b)) (by intro b hb; exact absurd (hsrc.symm.trans hb) (hs b))
  cases op with
  | field f n b => injection h with h; subst h; exact ha
  | fieldMesh f =>
    simp only [step, newFieldMesh] at h
    split at h
    · cases h
    · rename_i o _
      cases hn : newMesh w (.field f) [] (some (.many o.nmesh)) (some (.many o.box)) with
      | error x => rw [hn] at h; cases h
      | ok r =>
        rw [hn] at h
        injection h with h
        subst h
        exact hnew _ _ _ _ w r rfl hn (by intro b hb; cases hb)
  | arrayMesh arrays root box kw =>
    simp only [step, newArrayMesh] at h
    split at h
    · cases h
    · rename_i a _
      cases hr : realArr e a with
      | error x => rw [hr] at h; cases h
      | ok r =>
        rw [hr] at h
        simp only [Except.bind] at h
        split at h
        · cases hb : boxOf r.1.length box with
          | error x => rw [hb] at h; cases h
          | ok b =>
            rw [hb] at h
            dsimp only at h
            generalize hw1 : ({ w with fields := w.fields ++ [⟨.re (e.load r.1 r.2), r.1, b, fun _ => none⟩] } : World R P) = w1 at h
            cases hn : newMesh w1 (.field w.fields.length) [] (some (.many r.1)) box with
            | error x => rw [hn] at h; cases h
            | ok q =>
              rw [hn] at h
              injection h with h
              subst h
              exact hnew _ _ _ _ w1 q (by rw [← hw1]) hn (by intro b hb; cases hb)
        · cases h
  | linear p plin box nmesh seed draw u i r =>
    simp only [step, newLinear] at h
    cases hn : newMesh w (.linear p) (linearAttrs plin seed draw u i r) nmesh box with
    | error x => rw [hn] at h; cases h
    | ok q =>
      rw [hn] at h
      injection h with h
      subst h
      exact hnew _ _ _ _ w q rfl hn (by intro b hb; cases hb)
  | view m =>
    simp only [step, view] at h
    split at h
    · cases h
    · rename_i o ho
      injection h with h
      subst h
      refine agree_add k w hw ha _ _ _ ?_ ?_
      · intro b q hb hq
        injection hb with hb
        subst hb
        rw [ho] at hq
        injection hq with hq
        subst hq
        rfl
      · intro b hb
        injection hb with hb
        subst hb
        exact (List.getElem?_eq_some_iff.1 ho).1
  | apply m func kind mode =>
    simp only [step, apply] at h
    cases hc : checkAct (func.resolve mode kind).1 (func.resolve mode kind).2.1 (func.resolve mode kind).2.2 with
    | error x => rw [hc] at h; cases h
    | ok a =>
      rw [hc] at h
      simp only [Except.bind] at h
      split at h
      · cases h
      · rename_i o ho
        injection h with h
        subst h
        refine agree_add k w hw ha _ _ _ ?_ ?_
        · intro b q hb hq
          injection hb with hb
          subst hb
          rw [ho] at hq
          injection hq with hq
          subst hq
          rfl
        · intro b hb
          injection hb with hb
          subst hb
          exact (List.getElem?_eq_some_iff.1 ho).1
  | compute m mode n =>
    simp only [step] at h
    cases hc : computeField e w m mode n with
    | error x => rw [hc] at h; cases h
    | ok f =>
      rw [hc] at h
      injection h with h
      subst h
      exact ha
  | writeField f x =>
    simp only [step] at h
    split at h <;> first | (cases h; done) | (injection h with h; subst h; exact ha)
  | setAttr n k' v =>
    have hne : k ≠ k' := by
      rintro rfl
      simp [sets] at hk
    simp only [step] at h
    cases hn : w.meshes[n]? with
    | none => rw [hn] at h; cases h
    | some z =>
      rw [hn] at h
      injection h with h
      subst h
      have hl : n < w.meshes.length := (List.getElem?_eq_some_iff.1 hn).1
      have old : ∀ (m : Nat) (x : MeshObj R P), (w.meshes.set n { z with attrs := z.attrs.set k' w.vals.length })[m]? = some x →
          ∃ y, w.meshes[m]? = some y ∧ x.attrs k = y.attrs k ∧ x.src = y.src := by
        intro m x hx
        by_cases hm : n = m
        · subst hm
          rw [List.getElem?_set_self hl] at hx
          injection hx with hx
          subst hx
          exact ⟨z, hn, by simp [Dict.set, hne], rfl⟩
        · rw [List.getElem?_set_ne hm] at hx
          exact ⟨x, hx, rfl, rfl⟩
      intro m b o q ho hs hq
      obtain ⟨o', h1, h2, h3⟩ := old m o ho
      obtain ⟨q', h4, h5, _⟩ := old b q hq
      rw [h2, h5]
      exact ha m b o' q' h1 (h3 ▸ hs) h4
  | setFieldAttr f k' v =>
    simp only [step] at h
    split at h
    · cases h
    · injection h with h; subst h; exact ha
  | writeAttr n k' l =>
    simp only [step, writeVal] at h
    repeat' split at h
    all_goals first | (cases h; done) | (injection h with h; subst h; exact ha)
  | writeFieldAttr f k' l =>
    simp only [step, writeVal] at h
    repeat' split at h
    all_goals first | (cases h; done) | (injection h with h; subst h; exact ha)

/-- In a program that never assigns to `attrs[k]` of a mesh, views agree with their bases. -/
theorem agree_run (e : Env R P A) (k : String) : ∀ (ops : List (Op R P A)) (w : World R P), w.WF → Agree k w → (∀ o ∈ ops, sets k o = false) → Agree k (run e w ops)
  | [], _, _, h, _ => h
  | o :: l, w, hw, h, hs => by
    have : ((step e w o).toOption.getD w).WF ∧ Agree k ((step e w o).toOption.getD w) := by
      cases hst : step e w o with
      | error x => exact ⟨hw, h⟩
      | ok w' => exact ⟨step_wf e w w' hw o hst, agree_step e k w w' hw h o (hs o List.mem_cons_self) hst⟩
    exact agree_run e k l _ this.1 this.2 (fun x hx => hs x (List.mem_cons_of_mem _ hx))

/-- The mesh at the end of a chain of views. -/
inductive Chain (w : World R P) : Nat → Nat → Prop where
  | here (m : Nat) : Chain w m m
  | view (m b r : Nat) (o : MeshObj R P) (h : w.meshes[m]? = some o) (hs : o.src = .view b) (hc : Chain w b r) : Chain w m r

/-- **Views report the seed that is used**, as long as nobody assigns to the attributes. -/
theorem view_reported (e : Env R P A) (w : World R P) (hw : w.WF) (hs : Agree "seed" w) (m r : Nat) (hc : Chain w m r) (o q : MeshObj R P) (ho : w.meshes[m]? = some o) (hq : w.meshes[r]? = some q)
    (p : P) (hp : q.src = .linear p) (y : CF) (hy : linearField e w p q = .ok y) (hn : o.actions = []) :
    ∃ f s u i, computeField e w m (some .complex) none = .ok f ∧ w.attr f.attrs "seed" = some (.num s) ∧ f.data = .co (unitMean q.nmesh (e.gauss p s u i q.nmesh q.box)) := by
  have key : Origin e w m ⟨.co y, q.nmesh, q.box, q.attrs⟩ ∧ o.attrs "seed" = q.attrs "seed" := by
    clear hn
    induction hc generalizing o with
    | here m =>
      rw [ho] at hq
      injection hq with hq
      subst hq
      exact ⟨.linear m p o y ho hp hy, rfl⟩
    | view m b r o' h hsrc hcb ih =>
      rw [ho] at h
      injection h with h
      subst h
      have hbm := hw.base m o b ho hsrc
      have hml : m < w.meshes.length := (List.getElem?_eq_some_iff.1 ho).1
      obtain ⟨ob, hob⟩ : ∃ ob, w.meshes[b]? = some ob := ⟨_, List.getElem?_eq_getElem (by omega)⟩
      obtain ⟨h1, h2⟩ := ih ob hob hq
      exact ⟨.view m b o _ ho hsrc h1, (hs m b o ob ho hsrc hob).trans h2⟩
  obtain ⟨f, hf, hd, _, _, hattr, _⟩ := compute_spec e w hw m o ho _ key.1 .complex
  unfold linearField at hy
  split at hy
  · rename_i s u i h1 h2 h3
    injection hy with hy
    refine ⟨f, s, u.truthy, i.truthy, hf, ?_, ?_⟩
    · rw [← h1]
      unfold World.attr
      rw [hattr "seed", key.2]
      dsimp only
      cases q.attrs "seed" <;> rfl
    · rw [hd, hn]
      simp only [List.foldl_nil, List.head?_nil, Option.map_none, Option.getD_none, convert, hy]
  all_goals cases hy

/-! ## `apply` -/

/-- **Functions that are accepted**: the mode and kind that count are those of a filter, if one is given; they must go together. -/
theorem apply_iff (w : World R P) (m : Nat) (hm : m < w.meshes.length) (func : Func R) (kind mode : Option String) :
    (∃ r, apply w m func kind mode = .ok r) ↔
      ((func.resolve mode kind).1, (func.resolve mode kind).2.1) ∈
        ([(some "real", some "relative"), (some "real", some "index"), (some "complex", some "wavenumber"), (some "complex", some "circular"), (some "complex", some "index")] :
          List (Option String × Option String)) := by
  unfold apply
  dsimp only
  generalize func.resolve mode kind = r
  obtain ⟨mo, ki, f⟩ := r
  dsimp only
  have ho := List.getElem?_eq_getElem hm
  unfold checkAct
  rw [ho]
  by_cases h1 : mo = some "real"
  · subst h1
    rw [if_pos rfl]
    split
    · rename_i h
      refine ⟨fun _ => ?_, fun _ => ⟨_, rfl⟩⟩
      rcases h with rfl | rfl <;> decide
    · rename_i h
      constructor
      · rintro ⟨r, hr⟩; cases hr
      · intro hx
        exfalso
        apply h
        simp at hx
        exact hx
  · rw [if_neg h1]
    by_cases h2 : mo = some "complex"
    · subst h2
      rw [if_pos rfl]
      split
      · rename_i h
        refine ⟨fun _ => ?_, fun _ => ⟨_, rfl⟩⟩
        rcases h with rfl | rfl | rfl <;> decide
      · rename_i h
        constructor
        · rintro ⟨r, hr⟩; cases hr
        · intro hx
          exfalso
          apply h
          simp at hx
          exact hx
    · rw [if_neg h2]
      constructor
      · rintro ⟨r, hr⟩; cases hr
      · intro hx
        exfalso
        simp [h1, h2] at hx

/-- What an accepted function gives: a view with the action at the end, and the attributes of the mesh. -/
theorem apply_spec (w w' : World R P) (m v : Nat) (o : MeshObj R P) (ho : w.meshes[m]? = some o) (func : Func R) (kind mode : Option String) (h : apply w m func kind mode = .ok (w', v)) :
    ∃ q a, w'.meshes[v]? = some q ∧ q.src = .view m ∧ q.actions = o.actions ++ [a] ∧ q.attrs = o.attrs ∧ a.fn = (func.resolve mode kind).2.2 ∧
      some a.kind = (func.resolve mode kind).2.1 ∧ some (match a.mode with | .real => "real" | .complex => "complex") = (func.resolve mode kind).1 ∧
      ∀ n, n < w.meshes.length → w'.meshes[n]? = w.meshes[n]? := by
  unfold apply at h
  dsimp only at h
  generalize func.resolve mode kind = r at h ⊢
  obtain ⟨mo, ki, f⟩ := r
  dsimp only at h ⊢
  cases hc : checkAct mo ki f with
  | error x => rw [hc] at h; cases h
  | ok a =>
    rw [hc] at h
    simp only [Except.bind, ho] at h
    injection h with h
    injection h with h hv
    subst h hv
    refine ⟨_, a, List.getElem?_concat_length, rfl, rfl, rfl, ?_⟩
    unfold checkAct at hc
    split at hc
    · rename_i h1
      split at hc
      · rename_i h2
        injection hc with hc
        subst hc
        refine ⟨rfl, ?_, h1.symm, fun n hn => List.getElem?_append_left hn⟩
        rcases h2 with rfl | rfl <;> rfl
      · cases hc
    · split at hc
      · rename_i h1
        split at hc
        · rename_i h2
          injection hc with hc
          subst hc
          refine ⟨rfl, ?_, h1.symm, fun n hn => List.getElem?_append_left hn⟩
          rcases h2 with rfl | rfl | rfl <;> rfl
        · cases hc
      · cases hc

/-! ## Programs -/

/-- A small pmesh: a real field is one number, that of the mode (1, 0, 0). -/
def tiny : Env ℚ Nat ℚ where
  r2c := fun x _ => ⟨x, 0⟩
  c2r := fun y => (y [1, 0, 0]).re
  resampleR := fun _ _ x => x
  resampleC := fun _ _ y => y
  gauss := fun p s _ _ _ _ k => ⟨p + s + k.sum, 0⟩
  load := fun _ a => a
  irfftn := fun a => a
  scale := fun q a => q * a
  preview := fun x _ => x
  copyAttrs := false

def twice : Fn ℚ := ⟨fun _ x => 2 * x, fun _ y k => ⟨2 * (y k).re, 2 * (y k).im⟩⟩

def w0 : World ℚ Nat := ⟨[], [], []⟩

/-- A field of value 7, its mesh (0), a view of it that doubles (1), a linear mesh of seed 5 (2), a view of that (3). -/
def prog : List (Op ℚ Nat ℚ) :=
  [.field (.re 7) [4, 4, 4] [10, 10, 10], .fieldMesh 0, .apply 0 (.plain twice) (some "index") (some "real"),
    .linear 100 [] (some (.one 10)) (some (.one 4)) (some 5) 99 false false none, .view 2]

def num (r : Except Err (FieldObj ℚ)) : Option ℚ :=
  match r with
  | .ok ⟨.re x, _, _, _⟩ => some x
  | _ => none

/-- The view computes twice the field; its preview is that of the field. Writing into the field is seen by the mesh and its view. -/
theorem preview_wrong :
    num (computeField tiny (run tiny w0 prog) 1 (some .real) none) = some 14 ∧ (preview tiny (run tiny w0 prog) 1 none).toOption = some 7 ∧
    num (computeField tiny (run tiny w0 (prog ++ [.writeField 0 (.re 8)])) 1 (some .real) none) = some 16 := by
  refine ⟨?_, ?_, ?_⟩ <;> decide +kernel

/-- The number that a computed field reports. -/
def reported (w : World ℚ Nat) (r : Except Err (FieldObj ℚ)) (k : String) : Option Val := r.toOption.bind fun f => w.attr f.attrs k

/-- **A seed assigned to a view** has no effect on its field, and is what the field reports; one assigned to the mesh changes the fields of all views, which report the old one. -/
theorem seed_misreported :
    (let w := run tiny w0 (prog ++ [.setAttr 3 "seed" (.num 6)])
     num (computeField tiny w 3 (some .real) none) = some 106 ∧ reported w (computeField tiny w 3 (some .real) none) "seed" = some (.num 6)) ∧
    (let w := run tiny w0 (prog ++ [.setAttr 2 "seed" (.num 6)])
     num (computeField tiny w 3 (some .real) none) = some 107 ∧ reported w (computeField tiny w 3 (some .real) none) "seed" = some (.num 5)) := by
  refine ⟨⟨?_, ?_⟩, ⟨?_, ?_⟩⟩ <;> decide +kernel

/-- The box reported by a mesh can be overwritten through a view of it, or a field computed from it; the box of the grid stays. -/
theorem box_overwritten :
    (let w := run tiny w0 (prog ++ [.writeAttr 3 "BoxSize" [1, 1, 1]])
     (w.meshes[2]?).map (fun o => (w.attr o.attrs "BoxSize", o.box)) = some (some (.arr [1, 1, 1]), [10, 10, 10])) ∧
    (let w := run tiny w0 (prog ++ [.compute 2 (some .real) none, .writeFieldAttr 1 "BoxSize" [1, 1, 1]])
     (w.meshes[2]?).map (fun o => (w.attr o.attrs "BoxSize", o.box)) = some (some (.arr [1, 1, 1]), [10, 10, 10])) := by
  constructor <;> decide +kernel

/-- Keywords of `ArrayMesh`; an array on another rank; a complex array; the wrong number of dimensions. -/
theorem array_cases :
    (let w := run tiny w0 [.arrayMesh [⟨[2], false, 1⟩, ⟨[4, 4], false, 9⟩] 1 (some (.one 10)) [("redshift", .num 1)]]
     num (computeField tiny w 0 (some .real) none) = some 9 ∧ reported w (computeField tiny w 0 (some .real) none) "redshift" = none ∧
       reported w (computeField tiny w 0 (some .real) none) "Nmesh" = some (.arr [4, 4])) ∧
    (let w := run tiny w0 [.arrayMesh [⟨[4, 4, 3], true, 1⟩] 0 (some (.one 10)) []]
     num (computeField tiny w 0 (some .real) none) = some 64 ∧ reported w (computeField tiny w 0 (some .real) none) "Nmesh" = some (.arr [4, 4, 4])) ∧
    (match newArrayMesh tiny w0 [⟨[4], false, 1⟩] 0 (some (.one 10)) [] with | .error x => some x | .ok _ => none) = some .assertionError := by
  refine ⟨⟨?_, ?_, ?_⟩, ⟨?_, ?_⟩, ?_⟩ <;> decide +kernel

/-- An untransposed complex field is accepted by `FieldMesh`, and nothing can be computed. -/
theorem untransposed_case :
    let w := run tiny w0 [.field (.un fun _ => ⟨1, 0⟩) [4, 4, 4] [10, 10, 10], .fieldMesh 0, .view 0]
    w.meshes.length = 2 ∧ (match computeField tiny w 1 (some .complex) none with | .error x => some x | .ok _ => none) = some .assertionError := by
  constructor <;> decide +kernel

/-- Filters: their own mode and kind count; a filter without them is refused. -/
theorem filter_cases :
    let w := run tiny w0 prog
    (apply w 0 (.filterClass (some "complex") (some "circular") twice) (some "nonsense") (some "nonsense")).toOption.isSome ∧
    (apply w 0 (.filter none none twice) (some "index") (some "real")).toOption.isNone ∧
    (apply w 0 (.plain twice) (some "wavenumber") (some "real")).toOption.isNone := by
  refine ⟨?_, ?_, ?_⟩ <;> decide +kernel

/-- Computing with another `Nmesh` gives a field that reports the old one. -/
theorem resample_case :
    let w := run tiny w0 prog
    let r := computeField tiny w 0 (some .real) (some (.one 2))
    r.toOption.map (fun f => f.nmesh) = some [2, 2, 2] ∧ reported w r "Nmesh" = some (.arr [4, 4, 4]) := by
  constructor <;> decide +kernel

/-- C122: the switches of a linear mesh as `attrs` has them: zero, an empty array, False and an empty text are false. -/
theorem truthy_iff (v : Val) : v.truthy = false ↔ v = .num 0 ∨ v = .arr [] ∨ v = .flag false ∨ v = .text "" := by
  cases v <;> simp [Val.truthy]

end NBK.MeshObj
