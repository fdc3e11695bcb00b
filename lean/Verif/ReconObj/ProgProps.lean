import Verif.ReconObj.Props

/-! # Programs with `FFTRecon` objects -/
set_option linter.unusedSimpArgs false
namespace NBK.ReconObj
open NBK.Recon (V3 Scheme Field density psi work_density helper_eq)

/-! ## The field of an object -/

/-- The field documented for an object: the combination of the densities of the moved data and the moved randoms, with the parameters in `attrs` at that moment. -/
noncomputable def documented (e : Env) (N : Fin 3 → Nat) (B : V3) (sch : Scheme) (a : Attrs) (d r : List V3) : List ℚ :=
  let M := e.mesh N B
  let s := psi M.share M.fft ⟨a.bias, a.f, a.los, a.revert⟩ (e.smooth a.R) (M.fft.r2c (density M.share d))
  List.ofFn (Recon.recon M.share sch d r (fun p i => s p i * (1 + a.los i * a.f)) (fun p i => s p i * (if a.revert then 1 + a.los i * a.f else 1)))

theorem column_ok (cats : List Cat) (c : Nat) (p : String) (x : Cat) (l : List (List V3)) (h : cats[c]? = some x) (hp : x.cols p = some l) : column cats c p = .ok l := by
  simp [column, h, hp]

/-- **Field**: with a bias that is not zero and a valid scheme the field is the documented one, for any distribution on ranks and any chunks. -/
theorem field_eq (e : Env) (cats : List Cat) (N : Fin 3 → Nat) (B : V3) (p : String) (di ri : Nat) (a : Attrs) (dc rc : Cat) (d r : List (List V3)) (sch : Scheme)
    (hn : (e.mesh N B).n ≠ 0) (hc : e.chunk ≠ 0) (h1 : cats[di]? = some dc) (h2 : cats[ri]? = some rc) (h3 : dc.cols p = some d) (h4 : rc.cols p = some r) (hd : d.flatten ≠ [])
    (hr : r.flatten ≠ []) (hb : a.bias ≠ 0) (hs : (a.scheme, sch) ∈ [("LGS", Scheme.LGS), ("LF2", Scheme.LF2), ("LRR", Scheme.LRR)]) : field e cats N B p di ri a = .ok (some (documented e N B sch a d.flatten r.flatten)) := by
  have hs : schemeOf a.scheme = some sch := by
    simp only [List.mem_cons, Prod.mk.injEq, List.not_mem_nil, or_false] at hs
    rcases hs with ⟨h, rfl⟩ | ⟨h, rfl⟩ | ⟨h, rfl⟩ <;> rw [h] <;> rfl
  have d2 := (work_density hn (e.mesh N B).share e.chunk hc d hd (fun p => p)).2
  unfold field
  simp only [bind, Except.bind, pure, Except.pure, column_ok cats di p dc d h1 h3, column_ok cats ri p rc r h2 h4, d2, lift, if_neg hb, Recon.computeS, hs]
  have e1 : Recon.addRsd ⟨a.bias, a.f, a.los, a.revert⟩ (Recon.solve (e.mesh N B).share (e.mesh N B).fft ⟨a.bias, a.f, a.los, a.revert⟩ (e.smooth a.R)
      ((e.mesh N B).fft.r2c (density (e.mesh N B).share d.flatten)) d) =
      d.map fun r => r.map fun p i => psi (e.mesh N B).share (e.mesh N B).fft ⟨a.bias, a.f, a.los, a.revert⟩ (e.smooth a.R) ((e.mesh N B).fft.r2c (density (e.mesh N B).share d.flatten)) p i *
        (1 + a.los i * a.f) := by
    simp [Recon.addRsd, Recon.solve, List.map_map, Function.comp_def, psi]
  have e2 : (if a.revert = true then Recon.addRsd ⟨a.bias, a.f, a.los, a.revert⟩ (Recon.solve (e.mesh N B).share (e.mesh N B).fft ⟨a.bias, a.f, a.los, a.revert⟩ (e.smooth a.R)
      ((e.mesh N B).fft.r2c (density (e.mesh N B).share d.flatten)) r) else Recon.solve (e.mesh N B).share (e.mesh N B).fft ⟨a.bias, a.f, a.los, a.revert⟩ (e.smooth a.R)
      ((e.mesh N B).fft.r2c (density (e.mesh N B).share d.flatten)) r) =
      r.map fun r => r.map fun p i => psi (e.mesh N B).share (e.mesh N B).fft ⟨a.bias, a.f, a.los, a.revert⟩ (e.smooth a.R) ((e.mesh N B).fft.r2c (density (e.mesh N B).share d.flatten)) p i *
        (if a.revert then 1 + a.los i * a.f else 1) := by
    cases a.revert
    · simp only [Bool.false_eq_true, if_false, mul_one]; rfl
    · simp [Recon.addRsd, Recon.solve, List.map_map, Function.comp_def, psi]
  rw [e1, e2, helper_eq hn (e.mesh N B).share e.chunk hc sch d r hd hr]
  rfl

/-- A bias of zero, which the constructor accepts, is noticed when the field is computed. -/
theorem bias_zero (e : Env) (cats : List Cat) (N : Fin 3 → Nat) (B : V3) (p : String) (di ri : Nat) (a : Attrs) (dc : Cat) (d : List (List V3))
    (hn : (e.mesh N B).n ≠ 0) (hc : e.chunk ≠ 0) (h1 : cats[di]? = some dc) (h3 : dc.cols p = some d) (hd : d.flatten ≠ [])
    (hb : a.bias = 0) : field e cats N B p di ri a = .error .zeroDivision := by
  have d2 := (work_density hn (e.mesh N B).share e.chunk hc d hd (fun p => p)).2
  unfold field
  simp only [bind, Except.bind, pure, Except.pure, column_ok cats di p dc d h1 h3, d2, lift, if_pos hb]
  rfl

/-- A scheme that is not one of the three, set after construction, is noticed at the end of the computation, as a local variable without value. -/
theorem scheme_unbound (e : Env) (cats : List Cat) (N : Fin 3 → Nat) (B : V3) (p : String) (di ri : Nat) (a : Attrs) (dc rc : Cat) (d r : List (List V3))
    (hn : (e.mesh N B).n ≠ 0) (hc : e.chunk ≠ 0) (h1 : cats[di]? = some dc) (h2 : cats[ri]? = some rc) (h3 : dc.cols p = some d) (h4 : rc.cols p = some r) (hd : d.flatten ≠ [])
    (hb : a.bias ≠ 0) (hs : a.scheme ≠ "LGS" ∧ a.scheme ≠ "LF2" ∧ a.scheme ≠ "LRR") : field e cats N B p di ri a = .error .unbound := by
  have d2 := (work_density hn (e.mesh N B).share e.chunk hc d hd (fun p => p)).2
  have hs' : schemeOf a.scheme = none := by
    cases h : schemeOf a.scheme with
    | none => rfl
    | some x => exact absurd ((schemeOf_ok a.scheme).1 (by rw [h]; rfl)) (by rintro (h | h | h); exacts [hs.1 h, hs.2.1 h, hs.2.2 h])
  unfold field
  simp only [bind, Except.bind, pure, Except.pure, column_ok cats di p dc d h1 h3, column_ok cats ri p rc r h2 h4, d2, lift, if_neg hb, Recon.computeS, hs']
  rfl

/-- A column that the catalog of the data has lost since. -/
theorem column_lost (e : Env) (cats : List Cat) (N : Fin 3 → Nat) (B : V3) (p : String) (di ri : Nat) (a : Attrs) (dc : Cat) (h1 : cats[di]? = some dc) (h3 : dc.cols p = none) :
    field e cats N B p di ri a = .error .keyError := by
  unfold field
  simp only [bind, Except.bind, column, h1, h3, Option.elim]

/-- Columns set and deleted between are those that are used. -/
theorem column_set (e : Env) (s : St) (c : Nat) (x : Cat) (p : String) (v : List (List V3)) (h : s.cats[c]? = some x) (hv : v.map List.length = x.sizes) :
    column (step e s (.setCol c p v)).1.cats c p = .ok v ∧ (step e s (.setCol c p v)).2 = .unit := by
  have hlt := (List.getElem?_eq_some_iff.1 h).1
  simp only [step, modCat, h, if_pos hv]
  simp [column, List.getElem?_set_self hlt]

theorem column_set_size (e : Env) (s : St) (c : Nat) (x : Cat) (p : String) (v : List (List V3)) (h : s.cats[c]? = some x) (hv : v.map List.length ≠ x.sizes) :
    step e s (.setCol c p v) = (s, .error .valueError) := by
  simp only [step, modCat, h, if_neg hv]

theorem column_del (e : Env) (s : St) (c : Nat) (x : Cat) (p : String) (h : s.cats[c]? = some x) : if (x.cols p).isSome then column (step e s (.delCol c p)).1.cats c p = .error .keyError ∧
    (step e s (.delCol c p)).2 = .unit else step e s (.delCol c p) = (s, .error .valueError) := by
  have hlt := (List.getElem?_eq_some_iff.1 h).1
  simp only [step, modCat, h]
  split
  · simp [column, List.getElem?_set_self hlt]
  · rfl

/-! ## Views -/

/-- Views are made of older objects. -/
def Older (s : St) : Prop := ∀ (v of : Nat) (a : Attrs), s.objs[v]? = some ⟨.view of, a⟩ → of < v

theorem modCat_objs (s : St) (c : Nat) (g : Cat → Except Err Cat) : (modCat s c g).1.objs = s.objs := by
  unfold modCat
  split
  · rfl
  · split <;> rfl

theorem new_not_view (cats : List Cat) (a : Args) (of : Nat) (b : Attrs) : new cats a ≠ .ok ⟨.view of, b⟩ := by
  intro h
  obtain ⟨_, _, _, _, _, _, _, _, _, _, _, _, _, _, _, _, _, _, _, _, h⟩ := (new_eq cats a _).1 h
  cases h

/-- What an operation does to the objects: an old object keeps its kind always, and its `attrs` unless they are set. -/
theorem step_objs (e : Env) (s : St) (op : Op) (o : Nat) (x : Obj) (h : s.objs[o]? = some x) :
    (step e s op).1.objs[o]? = some (match op with | .setAttr o' k => if o' = o then { x with attrs := x.attrs.set k } else x | _ => x) := by
  have hlt : o < s.objs.length := (List.getElem?_eq_some_iff.1 h).1
  cases op with
  | make a =>
    simp only [step]
    split
    · exact h
    · simpa [List.getElem?_append_left hlt] using h
  | view o' =>
    simp only [step]
    split
    · exact h
    · simpa [List.getElem?_append_left hlt] using h
  | setAttr o' k =>
    simp only [step]
    by_cases ho : o' = o
    · subst ho
      simp only [h, if_true]
      simp [hlt]
    · rw [if_neg ho]
      split
      · exact h
      · simp only [List.getElem?_set_ne ho]; exact h
  | setCol c n v => simp only [step, modCat_objs]; exact h
  | delCol c n => simp only [step, modCat_objs]; exact h
  | setBox c v => simp only [step, modCat_objs]; exact h
  | setNmesh c v => simp only [step, modCat_objs]; exact h
  | compute o' =>
    simp only [step]
    split
    · exact h
    · split <;> exact h

theorem older_step (e : Env) (s : St) (op : Op) (h : Older s) : Older (step e s op).1 := by
  intro v of a hv
  by_cases hlt : v < s.objs.length
  · obtain ⟨x, hx⟩ : ∃ x, s.objs[v]? = some x := ⟨_, List.getElem?_eq_getElem hlt⟩
    have := step_objs e s op v x hx
    rw [hv] at this
    have hb : x.base = .view of := by
      have := Option.some.inj this
      cases op <;> simp only at this <;> try (rw [← this])
      rename_i o' k
      split at this
      · have := congrArg Obj.base this; exact this.symm
      · rw [← this]
    exact h v of x.attrs (by rw [hx, ← hb])
  · cases op with
    | make b =>
      simp only [step] at hv
      split at hv
      · exact absurd (List.getElem?_eq_some_iff.1 hv).1 hlt
      · rename_i o ho
        have hv' : (s.objs ++ [o])[v]? = some ⟨.view of, a⟩ := hv
        rw [List.getElem?_append_right (by omega)] at hv'
        have := List.mem_of_getElem? hv'
        simp only [List.mem_singleton] at this
        subst this
        exact absurd ho (new_not_view _ _ _ _)
    | view o' =>
      simp only [step] at hv
      split at hv
      · exact absurd (List.getElem?_eq_some_iff.1 hv).1 hlt
      · rename_i x hx
        have ho' : o' < s.objs.length := (List.getElem?_eq_some_iff.1 hx).1
        have hv' : (s.objs ++ [⟨.view o', x.attrs⟩])[v]? = some ⟨.view of, a⟩ := hv
        rw [List.getElem?_append_right (by omega)] at hv'
        have := List.mem_of_getElem? hv'
        simp only [List.mem_singleton] at this
        cases this
        omega
    | setAttr o' k =>
      simp only [step] at hv
      split at hv
      · exact absurd (List.getElem?_eq_some_iff.1 hv).1 hlt
      · have := (List.getElem?_eq_some_iff.1 hv).1
        simp at this
        exact absurd this hlt
    | setCol c n v => simp only [step, modCat_objs] at hv; exact absurd (List.getElem?_eq_some_iff.1 hv).1 hlt
    | delCol c n => simp only [step, modCat_objs] at hv; exact absurd (List.getElem?_eq_some_iff.1 hv).1 hlt
    | setBox c v => simp only [step, modCat_objs] at hv; exact absurd (List.getElem?_eq_some_iff.1 hv).1 hlt
    | setNmesh c v => simp only [step, modCat_objs] at hv; exact absurd (List.getElem?_eq_some_iff.1 hv).1 hlt
    | compute o' =>
      simp only [step] at hv
      split at hv
      · exact absurd (List.getElem?_eq_some_iff.1 hv).1 hlt
      · split at hv <;> exact absurd (List.getElem?_eq_some_iff.1 hv).1 hlt

theorem older_run (e : Env) (l : List Op) : ∀ s, Older s → Older (run e s l) := by
  induction l with
  | nil => intro s h; exact h
  | cons op l ih => intro s h; exact ih _ (older_step e s op h)

theorem older_init (cats : List Cat) : Older ⟨cats, []⟩ := by
  intro v of a h
  simp at h

/-- The object that a view finally asks. -/
inductive Root (s : St) : Nat → Nat → Prop
  | recon (o : Nat) (n : Fin 3 → Nat) (b : V3) (p : String) (d r : Nat) (a : Attrs) : s.objs[o]? = some ⟨.recon n b p d r, a⟩ → Root s o o
  | view (v of o : Nat) (a : Attrs) : s.objs[v]? = some ⟨.view of, a⟩ → Root s of o → Root s v o

theorem realField_root (e : Env) (s : St) (hs : Older s) (v o : Nat) (h : Root s v o) :
    ∀ fuel, v < fuel → ∃ n b p d r a, s.objs[o]? = some ⟨.recon n b p d r, a⟩ ∧ realField e s fuel v = field e s.cats n b p d r a := by
  induction h with
  | recon o n b p d r a h =>
    intro fuel hf
    refine ⟨n, b, p, d, r, a, h, ?_⟩
    cases fuel with
    | zero => omega
    | succ k => simp only [realField, h]
  | view v of o a hv _ ih =>
    intro fuel hf
    cases fuel with
    | zero => omega
    | succ k =>
      have := hs v of a hv
      obtain ⟨n, b, p, d, r, a', h1, h2⟩ := ih k (by omega)
      refine ⟨n, b, p, d, r, a', h1, ?_⟩
      simp only [realField, hv, h2]

theorem root_exists (s : St) (hs : Older s) (hv : ∀ (v of : Nat) (a : Attrs), s.objs[v]? = some ⟨.view of, a⟩ → of < s.objs.length) : ∀ v, v < s.objs.length → ∃ o, Root s v o := by
  intro v
  induction v using Nat.strong_induction_on with
  | _ v ih =>
    intro hlt
    have hx : s.objs[v]? = some s.objs[v] := List.getElem?_eq_getElem hlt
    rcases hb : s.objs[v] with ⟨base, a⟩
    rw [hb] at hx
    cases base with
    | recon n b p d r => exact ⟨v, .recon v n b p d r a hx⟩
    | view of =>
      obtain ⟨o, ho⟩ := ih of (hs v of a hx) (hv v of a hx)
      exact ⟨o, .view v of o a hx ho⟩

/-- **Every object of a program** that starts with catalogs only has such an object behind it. -/
theorem root_total (e : Env) (cats : List Cat) (l : List Op) (v : Nat) (hv : v < (run e ⟨cats, []⟩ l).objs.length) : ∃ o, Root (run e ⟨cats, []⟩ l) v o := by
  have ho := older_run e l _ (older_init cats)
  refine root_exists _ ho ?_ v hv
  intro w of a hw
  have := ho w of a hw
  have := (List.getElem?_eq_some_iff.1 hw).1
  omega

/-- **What `compute` gives**: the field made with the `attrs` of the object behind, and a copy of the `attrs` of the object that was asked. -/
theorem compute_spec (e : Env) (s : St) (hs : Older s) (v o : Nat) (h : Root s v o) : ∃ n b p d r a x, s.objs[o]? = some ⟨.recon n b p d r, a⟩ ∧ s.objs[v]? = some x ∧
    (step e s (.compute v)).2 = (match field e s.cats n b p d r a with | .error er => .error er | .ok w => .field w x.attrs) ∧ (step e s (.compute v)).1 = s := by
  obtain ⟨n, b, p, d, r, a, h1, h2⟩ := realField_root e s hs v o h (v + 1) (by omega)
  have hx : ∃ x, s.objs[v]? = some x := by cases h with | recon _ _ _ _ _ _ _ h => exact ⟨_, h⟩ | view _ _ _ _ h _ => exact ⟨_, h⟩
  obtain ⟨x, hx⟩ := hx
  refine ⟨n, b, p, d, r, a, x, h1, hx, ?_, ?_⟩
  · simp only [step, hx, h2]
    split <;> rename_i hh <;> simp only [hh]
  · simp only [step, hx]
    split <;> rfl

theorem root_step (e : Env) (s : St) (op : Op) (v o : Nat) (h : Root s v o) : Root (step e s op).1 v o := by
  induction h with
  | recon o n b p d r a h =>
    have := step_objs e s op o _ h
    cases op with
    | setAttr o' k =>
      simp only at this
      split at this
      · exact .recon o n b p d r _ this
      · exact .recon o n b p d r a this
    | _ => exact .recon o n b p d r a this
  | view v of o a hv _ ih =>
    have := step_objs e s op v _ hv
    cases op with
    | setAttr o' k =>
      simp only at this
      split at this
      · exact .view v of o _ this ih
      · exact .view v of o a this ih
    | _ => exact .view v of o a this ih

theorem root_run (e : Env) (l : List Op) : ∀ (s : St) (v o : Nat), Root s v o → Root (run e s l) v o := by
  induction l with
  | nil => intro s v o h; exact h
  | cons op l ih => intro s v o h; exact ih _ _ _ (root_step e s op v o h)

/-! ## What has no effect -/

/-- The operations on an object other than `o`, and those that do not touch what the field is made of. -/
def leaves (o : Nat) (p : String) (d r : Nat) : Op → Bool
  | .setAttr _ (.nmesh _) => true
  | .setAttr _ (.box _) => true
  | .setAttr o' _ => o' != o
  | .setCol c n _ => n != p || (c != d && c != r)
  | .delCol c n => n != p || (c != d && c != r)
  | _ => true

/-- Same for the field: all but `Nmesh` and `BoxSize`. -/
def AttrsEq (a b : Attrs) : Prop := a.bias = b.bias ∧ a.f = b.f ∧ a.los = b.los ∧ a.R = b.R ∧ a.scheme = b.scheme ∧ a.revert = b.revert

theorem field_congr (e : Env) (cats cats' : List Cat) (N : Fin 3 → Nat) (B : V3) (p : String) (d r : Nat) (a a' : Attrs) (h : AttrsEq a a') (hd : column cats d p = column cats' d p)
    (hr : column cats r p = column cats' r p) : field e cats N B p d r a = field e cats' N B p d r a' := by
  obtain ⟨h1, h2, h3, h4, h5, h6⟩ := h
  unfold field
  rw [h1, h2, h3, h4, h5, h6, hd, hr]

theorem modCat_column (s : St) (c : Nat) (g : Cat → Except Err Cat) (d : Nat) (p : String) (h : c = d → ∀ x y, g x = .ok y → y.cols p = x.cols p) :
    column (modCat s c g).1.cats d p = column s.cats d p := by
  unfold modCat
  split
  · rfl
  · rename_i x hx
    split
    · rfl
    · rename_i y hy
      unfold column
      by_cases hcd : c = d
      · subst hcd
        have hlt := (List.getElem?_eq_some_iff.1 hx).1
        simp only [List.getElem?_set_self hlt, hx, h rfl x y hy]
      · simp only [List.getElem?_set_ne hcd]

theorem leaves_column (e : Env) (s : St) (op : Op) (o : Nat) (p : String) (d r : Nat) (h : leaves o p d r op = true) :
    column (step e s op).1.cats d p = column s.cats d p ∧ column (step e s op).1.cats r p = column s.cats r p := by
  cases op with
  | make a => simp only [step]; split <;> exact ⟨rfl, rfl⟩
  | view a => simp only [step]; split <;> exact ⟨rfl, rfl⟩
  | setAttr a k => simp only [step]; split <;> exact ⟨rfl, rfl⟩
  | compute a =>
    simp only [step]
    split
    · exact ⟨rfl, rfl⟩
    · split <;> exact ⟨rfl, rfl⟩
  | setBox c v => exact ⟨modCat_column _ _ _ _ _ (by rintro _ x y h; cases h; rfl), modCat_column _ _ _ _ _ (by rintro _ x y h; cases h; rfl)⟩
  | setNmesh c v => exact ⟨modCat_column _ _ _ _ _ (by rintro _ x y h; cases h; rfl), modCat_column _ _ _ _ _ (by rintro _ x y h; cases h; rfl)⟩
  | setCol c n v =>
    simp only [leaves, Bool.or_eq_true, bne_iff_ne, ne_eq, Bool.and_eq_true] at h
    refine ⟨modCat_column _ _ _ _ _ ?_, modCat_column _ _ _ _ _ ?_⟩ <;>
    · rintro rfl x y hy
      split at hy
      · cases hy
        dsimp only
        rw [if_neg]
        intro hp
        rcases h with h | h
        · exact h hp.symm
        · simp at h
      · cases hy
  | delCol c n =>
    simp only [leaves, Bool.or_eq_true, bne_iff_ne, ne_eq, Bool.and_eq_true] at h
    refine ⟨modCat_column _ _ _ _ _ ?_, modCat_column _ _ _ _ _ ?_⟩ <;>
    · rintro rfl x y hy
      split at hy
      · cases hy
        dsimp only
        rw [if_neg]
        intro hp
        rcases h with h | h
        · exact h hp.symm
        · simp at h
      · cases hy

/-- **Isolation**: operations on other objects, on other columns, on the `BoxSize` and `Nmesh` of the catalogs and on `attrs['Nmesh']` and `attrs['BoxSize']` of the object itself never change the
field it computes. -/
theorem field_kept (e : Env) (o : Nat) (N : Fin 3 → Nat) (B : V3) (p : String) (d r : Nat) (l : List Op) (hl : ∀ op ∈ l, leaves o p d r op = true) :
    ∀ (s : St) (a : Attrs), s.objs[o]? = some ⟨.recon N B p d r, a⟩ →
      ∃ a', (run e s l).objs[o]? = some ⟨.recon N B p d r, a'⟩ ∧ field e (run e s l).cats N B p d r a' = field e s.cats N B p d r a := by
  induction l with
  | nil => intro s a h; exact ⟨a, h, rfl⟩
  | cons op l ih =>
    intro s a h
    have hop := hl op (by simp)
    obtain ⟨c1, c2⟩ := leaves_column e s op o p d r hop
    have hs := step_objs e s op o _ h
    have : ∃ a1, (step e s op).1.objs[o]? = some ⟨.recon N B p d r, a1⟩ ∧ AttrsEq a1 a := by
      cases op with
      | setAttr o' k =>
        simp only at hs
        by_cases ho : o' = o
        · rw [if_pos ho] at hs
          refine ⟨_, hs, ?_⟩
          cases k <;> simp [leaves, ho] at hop
          · exact ⟨rfl, rfl, rfl, rfl, rfl, rfl⟩
          · exact ⟨rfl, rfl, rfl, rfl, rfl, rfl⟩
        · rw [if_neg ho] at hs
          exact ⟨a, hs, rfl, rfl, rfl, rfl, rfl, rfl⟩
      | _ => exact ⟨a, hs, rfl, rfl, rfl, rfl, rfl, rfl⟩
    obtain ⟨a1, h1, h2⟩ := this
    obtain ⟨a', h3, h4⟩ := ih (fun op' ho => hl op' (by simp [ho])) _ a1 h1
    refine ⟨a', h3, h4.trans ?_⟩
    exact field_congr e _ _ N B p d r a1 a h2 c1 c2

/-- **Live**: an object made once and asked after any changes of the catalogs gives the field of an object made after them with the old mesh. -/
theorem live (e : Env) (s : St) (hs : Older s) (a : Args) (o : Obj) (h : new s.cats a = .ok o) (l : List Op) (hl : ∀ op ∈ l, ∀ k, op ≠ .setAttr s.objs.length k) (o' : Obj)
    (h' : new (run e s (.make a :: l)).cats { a with nmesh := some o.attrs.nmesh, box := some o.attrs.box } = .ok o') :
    (step e (run e s (.make a :: l)) (.compute s.objs.length)).2 =
      (step e (step e (run e s (.make a :: l)) (.make { a with nmesh := some o.attrs.nmesh, box := some o.attrs.box })).1 (.compute (run e s (.make a :: l)).objs.length)).2 := by
  have e0 : o' = o := renew _ _ a o o' h h'
  subst e0
  obtain ⟨N, B, hb, _⟩ := (new_spec _ _ _ h).2.2.2.2.2.2
  have hmk : (step e s (.make a)).1 = ⟨s.cats, s.objs ++ [o']⟩ := by simp only [step, h]
  have hkeep : ∀ (l : List Op), (∀ op ∈ l, ∀ k, op ≠ .setAttr s.objs.length k) → ∀ t : St, t.objs[s.objs.length]? = some o' → (run e t l).objs[s.objs.length]? = some o' := by
    intro l
    induction l with
    | nil => intro _ t ht; exact ht
    | cons op l ih =>
      intro hl t ht
      refine ih (fun op' ho => hl op' (by simp [ho])) _ ?_
      rw [step_objs e t op _ _ ht]
      cases op with
      | setAttr o1 k =>
        simp only
        rw [if_neg]
        intro hh
        exact hl (.setAttr o1 k) (by simp) k (by rw [hh])
      | _ => rfl
  have hobj : (run e s (.make a :: l)).objs[s.objs.length]? = some o' := by
    have : run e s (.make a :: l) = run e (step e s (.make a)).1 l := rfl
    rw [this]
    exact hkeep l hl _ (by rw [hmk]; simp)
  have hold : Older (run e s (.make a :: l)) := older_run e _ _ hs
  generalize run e s (.make a :: l) = t at *
  have hmk2 : (step e t (.make { a with nmesh := some o'.attrs.nmesh, box := some o'.attrs.box })).1 = ⟨t.cats, t.objs ++ [o']⟩ := by simp only [step, h']
  rw [hmk2]
  rcases o' with ⟨base, at'⟩
  simp only at hb
  subst hb
  simp only [step, hobj, realField, List.getElem?_append_right (Nat.le_refl _), Nat.sub_self, List.getElem?_cons_zero]
  cases field e t.cats N B a.position a.data a.ran at' <;> rfl

/-! ## Setting `attrs` of views and of their bases -/

/-- **A view does not listen**: a key set in the `attrs` of a view is reported with the field but has no part in it. -/
theorem view_set (e : Env) (s : St) (hs : Older s) (v of o : Nat) (b : Attrs) (hv : s.objs[v]? = some ⟨.view of, b⟩) (h : Root s v o) (k : Key) (w : Option (List ℚ))
    (hw : (step e s (.compute v)).2 = .field w b) : (step e (step e s (.setAttr v k)).1 (.compute v)).2 = .field w (b.set k) := by
  obtain ⟨n, bb, p, d, r, a, x, h1, h2, h3, _⟩ := compute_spec e s hs v o h
  obtain ⟨n', bb', p', d', r', a', x', h1', h2', h3', _⟩ := compute_spec e _ (older_step e s (.setAttr v k) hs) v o (root_step e s (.setAttr v k) v o h)
  have hvo : v ≠ o := by
    rintro rfl
    rw [hv] at h1
    cases h1
  have k1 := step_objs e s (.setAttr v k) o _ h1
  simp only [if_neg hvo] at k1
  rw [k1] at h1'
  cases h1'
  have k2 := step_objs e s (.setAttr v k) v _ hv
  simp only [if_true] at k2
  rw [k2] at h2'
  cases h2'
  rw [h3', ]
  rw [h3] at hw
  have hc : (step e s (.setAttr v k)).1.cats = s.cats := by simp only [step]; split <;> rfl
  rw [hc]
  cases hf : field e s.cats n bb p d r a with
  | error er => simp only [hf] at hw; cases hw
  | ok w' => simp only [hf] at hw ⊢; cases hw; rfl

/-- **A view reports old parameters**: a key set in the `attrs` of the object behind is used in the field of the view, which still reports the parameters of the time of the view. -/
theorem base_set (e : Env) (s : St) (hs : Older s) (v of o : Nat) (b : Attrs) (hv : s.objs[v]? = some ⟨.view of, b⟩) (h : Root s v o) (k : Key) (w : Option (List ℚ)) (a : Attrs)
    (hw : (step e (step e s (.setAttr o k)).1 (.compute o)).2 = .field w a) :
    (∃ y, s.objs[o]? = some y ∧ a = y.attrs.set k) ∧ (step e (step e s (.setAttr o k)).1 (.compute v)).2 = .field w b := by
  have hr := root_step e s (.setAttr o k) v o h
  obtain ⟨n, bb, p, d, r, a1, x, h1, h2, h3, _⟩ := compute_spec e _ (older_step e s (.setAttr o k) hs) v o hr
  have ho : Root (step e s (.setAttr o k)).1 o o := .recon o n bb p d r a1 h1
  obtain ⟨n', bb', p', d', r', a1', x', h1', h2', h3', _⟩ := compute_spec e _ (older_step e s (.setAttr o k) hs) o o ho
  have hy : ∃ y, s.objs[o]? = some y := by
    have : ∀ {v o}, Root s v o → ∃ y, s.objs[o]? = some y := by
      intro v o h
      induction h with
      | recon _ _ _ _ _ _ _ h => exact ⟨_, h⟩
      | view _ _ _ _ _ _ ih => exact ih
    exact this h
  obtain ⟨y, hy⟩ := hy
  have k1 := step_objs e s (.setAttr o k) o _ hy
  simp only [if_true] at k1
  have hvo : o ≠ v := by
    rintro rfl
    rw [hv] at hy
    cases hy
    rw [k1] at h1
    cases h1
  have k2 := step_objs e s (.setAttr o k) v _ hv
  simp only [if_neg hvo] at k2
  rw [k2] at h2
  cases h2
  rw [h1] at h1'
  cases h1'
  rw [k1] at h2'
  cases h2'
  rw [h3'] at hw
  rw [h3]
  cases hf : field e (step e s (.setAttr o k)).1.cats n bb p d r a1 with
  | error er => simp only [hf] at hw; cases hw
  | ok w' => simp only [hf] at hw ⊢; cases hw; exact ⟨⟨y, hy, rfl⟩, rfl⟩

/-! ## A program -/

/-- Two cells along one axis, each position shared by its distance. -/
def exShare : V3 → Fin 2 → ℚ := fun p c => if (p 2).floor % 2 = c.val then 1 - (p 2 - (p 2).floor) else p 2 - (p 2).floor

/-- A transform with a wave whose gradient is not zero at the cells. -/
def exFft : Recon.Fft 2 2 where
  r2c f i := if i = 0 then ((f 0 + f 1) / 2, 0) else ((f 0 - f 1) / 2, 0)
  c2r z c := (z 0).1 + (if c = 0 then (z 1).2 else - (z 1).2)
  k i := if i = 0 then 0 else ![0, 0, 1]

def exEnv : Env := ⟨fun _ _ => ⟨2, 2, exShare, exFft⟩, fun R _ => 1 + R, 3⟩

def exCats : List Cat :=
  [⟨true, 0, some [2], some [4, 4, 4], [2, 0, 1], fun n => if n = "Position" then some Recon.exData else none⟩,
   ⟨true, 0, none, none, [1, 1], fun n => if n = "Position" then some Recon.exRan else none⟩]

def exArgs : Args := ⟨0, 1, none, 2, 1, [0, 0, 1], 0, "Position", false, "LGS", none⟩

def outs (e : Env) : St → List Op → List Out
  | _, [] => []
  | s, op :: l => (step e s op).2 :: outs e (step e s op).1 l

/-- What is seen of an output: the field and the bias reported with it, or the error. -/
def seen : Out → Option (Except Err (Option (List ℚ) × ℚ))
  | .unit => none
  | .error e => some (.error e)
  | .field v a => some (.ok (v, a.bias))

/-- An object, a view of it; the bias of the view, then that of the object are set; a bias of zero; an unknown scheme; a lost column; an unknown scheme and a zero direction for the constructor. -/
theorem case_program : (outs exEnv ⟨exCats, []⟩ [.make exArgs, .view 0, .setAttr 0 (.los ![0, 0, 1]), .compute 0, .setAttr 1 (.bias 4), .compute 1, .setAttr 0 (.bias 1), .compute 0, .compute 1,
    .setNmesh 0 [8], .setAttr 0 (.nmesh [9]), .compute 0, .setAttr 0 (.bias 0), .compute 1, .setAttr 0 (.bias 1), .setAttr 0 (.scheme "LPT"), .compute 0, .delCol 0 "Position", .compute 0,
    .make { exArgs with scheme := "LPT" }, .make { exArgs with los := [0, 0, 0] }, .make { exArgs with nmesh := some [2, 2] }, .make exArgs]).map seen =
    [none, none, none, some (.ok (some [5/27, -5/27], 2)), none, some (.ok (some [5/27, -5/27], 4)), none, some (.ok (some [1/9, -1/9], 1)), some (.ok (some [1/9, -1/9], 4)), none, none,
     some (.ok (some [1/9, -1/9], 1)), none, some (.error .zeroDivision), none, none, some (.error .unbound), none, some (.error .keyError), some (.error .assertion), some (.error .assertion),
     some (.error .valueError), some (.error .assertion)] := by decide +kernel

end NBK.ReconObj
