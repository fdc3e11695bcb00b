import Verif.ZhistObj.Props

/-! # What is kept, shared and restored -/
set_option linter.unusedSimpArgs false
namespace NBK.ZhistObj

/-! ## Frames -/

theorem step_arr (e : Env) (w : World) (op : Op) (k : Nat) (hk : k < w.arrs.length) (ho : ∀ i v, op ≠ .poke k i v) : (step e w op).1.arrs[k]? = w.arrs[k]? := by
  cases op with
  | make a =>
    simp only [step]
    split
    · rfl
    · rename_i w' hw
      obtain ⟨w1, c, z, s, r, hc, hz, hwt, hs, hr, rfl⟩ := make_world e w a w' hw
      exact (edgesOf_spec e w z a.bins w1 s hs).2.2.2.2.2.1 k hk
  | run o =>
    simp only [step]
    split
    · rfl
    · split
      · rfl
      · split <;> rfl
  | setAttr o q =>
    simp only [step]
    split
    · rfl
    · split
      · rfl
      · split <;> rfl
  | poke a i v =>
    simp only [step]
    split
    · rfl
    · split
      · have : a ≠ k := by rintro rfl; exact ho i v rfl
        simp only [List.getElem?_set_ne this]
      · rfl
  | setCol c n v => simp only [step]; split <;> rfl
  | copy o => simp only [step]; split <;> rfl
  | pickle o =>
    simp only [step]
    split
    · rfl
    rename_i x hx
    split
    · rfl
    rename_i d hd
    dsimp only
    obtain ⟨a1, a2, a3⟩ := alloc_spec w (w.value x.binEdges)
    split
    · exact a2 k hk
    · obtain ⟨b1, b2, b3⟩ := alloc_spec { w with arrs := (alloc w.arrs (w.value x.binEdges)).1 } (w.value d.edges)
      exact (b2 k (by dsimp only; omega)).trans (a2 k hk)
  | save o path =>
    simp only [step]
    split
    · rfl
    · split <;> rfl
  | load path comm =>
    simp only [step]
    split
    · rfl
    rename_i f hf
    dsimp only
    obtain ⟨a1, a2, a3⟩ := alloc_spec w f.binEdges
    obtain ⟨b1, b2, b3⟩ := alloc_spec { w with arrs := (alloc w.arrs f.binEdges).1 } f.edges
    exact (b2 k (by dsimp only; omega)).trans (a2 k hk)

theorem step_dict (e : Env) (w : World) (op : Op) (k : Nat) (hk : k < w.dicts.length) (ho : ∀ o q x, op = .setAttr o q → w.objs[o]? = some x → x.attrs ≠ k) :
    (step e w op).1.dicts[k]? = w.dicts[k]? := by
  cases op with
  | make a =>
    simp only [step]
    split
    · rfl
    · rename_i w' hw
      obtain ⟨w1, c, z, s, r, hc, hz, hwt, hs, hr, rfl⟩ := make_world e w a w' hw
      have := (edgesOf_spec e w z a.bins w1 s hs).1
      simp only [this, List.getElem?_append_left hk]
  | run o =>
    simp only [step]
    split
    · rfl
    · split
      · rfl
      · split <;> rfl
  | setAttr o q =>
    simp only [step]
    split
    · rfl
    · rename_i x hx
      split
      · rfl
      · split
        · simp only [List.getElem?_set_ne (ho o q x rfl hx)]
        · rfl
  | poke a i v =>
    simp only [step]
    split
    · rfl
    · split <;> rfl
  | setCol c n v => simp only [step]; split <;> rfl
  | copy o => simp only [step]; split <;> rfl
  | pickle o =>
    simp only [step]
    split
    · rfl
    split
    · rfl
    simp only [List.getElem?_append_left hk]
  | save o path =>
    simp only [step]
    split
    · rfl
    · split <;> rfl
  | load path comm =>
    simp only [step]
    split
    · rfl
    simp only [List.getElem?_append_left hk]

/-- An object keeps its source, its communicator and its `attrs`, and all of it unless it is run. -/
theorem step_obj (e : Env) (w : World) (op : Op) (o : Nat) (x : Obj) (h : w.objs[o]? = some x) :
    ∃ x', (step e w op).1.objs[o]? = some x' ∧ x'.src = x.src ∧ x'.comm = x.comm ∧ x'.attrs = x.attrs ∧ (op ≠ .run o → x' = x) := by
  have hlt : o < w.objs.length := (List.getElem?_eq_some_iff.1 h).1
  cases op with
  | make a =>
    simp only [step]
    split
    · exact ⟨x, h, rfl, rfl, rfl, fun _ => rfl⟩
    · rename_i w' hw
      obtain ⟨w1, c, z, s, r, hc, hz, hwt, hs, hr, rfl⟩ := make_world e w a w' hw
      have := (edgesOf_spec e w z a.bins w1 s hs).2.2.1
      exact ⟨x, by simp only [this, List.getElem?_append_left hlt]; exact h, rfl, rfl, rfl, fun _ => rfl⟩
  | run o' =>
    simp only [step]
    split
    · exact ⟨x, h, rfl, rfl, rfl, fun _ => rfl⟩
    rename_i y hy
    split
    · exact ⟨x, h, rfl, rfl, rfl, fun _ => rfl⟩
    by_cases ho : o' = o
    · subst ho
      rw [h] at hy
      cases hy
      split
      · exact ⟨x, h, rfl, rfl, rfl, fun _ => rfl⟩
      · exact ⟨_, List.getElem?_set_self hlt, rfl, rfl, rfl, fun hh => absurd rfl hh⟩
      · exact ⟨_, List.getElem?_set_self hlt, rfl, rfl, rfl, fun hh => absurd rfl hh⟩
    · split
      · exact ⟨x, h, rfl, rfl, rfl, fun _ => rfl⟩
      · exact ⟨x, by simp only [List.getElem?_set_ne ho]; exact h, rfl, rfl, rfl, fun _ => rfl⟩
      · exact ⟨x, by simp only [List.getElem?_set_ne ho]; exact h, rfl, rfl, rfl, fun _ => rfl⟩
  | setAttr o' q =>
    refine ⟨x, ?_, rfl, rfl, rfl, fun _ => rfl⟩
    simp only [step]
    split
    · exact h
    · split
      · exact h
      · split <;> exact h
  | poke a i v =>
    refine ⟨x, ?_, rfl, rfl, rfl, fun _ => rfl⟩
    simp only [step]
    split
    · exact h
    · split <;> exact h
  | setCol c n v => exact ⟨x, by simp only [step]; split <;> exact h, rfl, rfl, rfl, fun _ => rfl⟩
  | copy o' =>
    refine ⟨x, ?_, rfl, rfl, rfl, fun _ => rfl⟩
    simp only [step]
    split
    · exact h
    · simp only [List.getElem?_append_left hlt]; exact h
  | pickle o' =>
    refine ⟨x, ?_, rfl, rfl, rfl, fun _ => rfl⟩
    simp only [step]
    split
    · exact h
    split
    · exact h
    simp only [List.getElem?_append_left hlt]; exact h
  | save o' path =>
    refine ⟨x, ?_, rfl, rfl, rfl, fun _ => rfl⟩
    simp only [step]
    split
    · exact h
    · split <;> exact h
  | load path comm =>
    refine ⟨x, ?_, rfl, rfl, rfl, fun _ => rfl⟩
    simp only [step]
    split
    · exact h
    simp only [List.getElem?_append_left hlt]; exact h

/-! ## What is kept -/

/-- **Snapshot**: the centers, volumes and densities of an object are those of its last run, whatever else the program does. -/
theorem results_kept (e : Env) (o : Nat) (l : List Op) (hl : Op.run o ∉ l) : ∀ (w : World) (x : Obj), w.objs[o]? = some x → (run e w l).objs[o]? = some x := by
  induction l with
  | nil => intro w x h; exact h
  | cons op l ih =>
    intro w x h
    simp only [List.mem_cons, not_or] at hl
    obtain ⟨x', h1, _, _, _, h5⟩ := step_obj e w op o x h
    rw [h5 (fun hh => hl.1 hh.symm)] at h1
    exact ih hl.2 _ x h1

/-- The operations that are seen at an object: its run, a key set in an `attrs` that it uses, an item set in an array of edges that it uses. -/
def Touches (w : World) (o : Nat) : Op → Prop
  | .run o' => o' = o
  | .setAttr o' _ => ∃ x y, w.objs[o']? = some x ∧ w.objs[o]? = some y ∧ x.attrs = y.attrs
  | .poke a _ _ => ∃ x d, w.objs[o]? = some x ∧ w.dicts[x.attrs]? = some d ∧ (x.binEdges = .arr a ∨ d.edges = .arr a)
  | _ => False

theorem value_step (e : Env) (w : World) (op : Op) (s : Seq) (hs : w.has s = true) (hp : ∀ a i v, op = .poke a i v → s ≠ .arr a) : (step e w op).1.value s = w.value s := by
  cases s with
  | list l => rfl
  | arr a =>
    simp only [World.has, decide_eq_true_eq] at hs
    simp only [World.value, step_arr e w op a hs (fun i v hh => hp a i v hh rfl)]

/-- **Frame**: all other operations leave the object as it is seen. -/
theorem look_step (e : Env) (w : World) (hw : Wf w) (op : Op) (o : Nat) (ho : o < w.objs.length) (ht : ¬ Touches w o op) : look (step e w op).1 o = look w o := by
  obtain ⟨x, hx⟩ : ∃ x, w.objs[o]? = some x := ⟨_, List.getElem?_eq_getElem ho⟩
  obtain ⟨hd, hb⟩ := hw.obj o x hx
  obtain ⟨d, hd'⟩ : ∃ d, w.dicts[x.attrs]? = some d := ⟨_, List.getElem?_eq_getElem hd⟩
  obtain ⟨x', h1, _, _, _, h5⟩ := step_obj e w op o x hx
  have hr : op ≠ .run o := fun hh => ht (by rw [hh]; rfl)
  rw [h5 hr] at h1
  have h2 : (step e w op).1.dicts[x.attrs]? = some d := by
    rw [step_dict e w op x.attrs hd ?_, hd']
    rintro o' q y rfl hy hh
    exact ht ⟨y, x, hy, hx, hh⟩
  unfold look
  simp only [h1, h2, hx, hd', stateOf]
  rw [value_step e w op _ hb ?_, value_step e w op _ (hw.dict _ d hd') ?_]
  · rintro a i v rfl hh; exact ht ⟨x, d, hx, hd', .inr hh⟩
  · rintro a i v rfl hh; exact ht ⟨x, d, hx, hd', .inl hh⟩

/-- Edges set by item are seen at the object at once, its centers and densities are not changed. -/
theorem poke_seen (e : Env) (w : World) (o a i : Nat) (v : ℚ) (x : Obj) (d : Attrs) (l : List ℚ) (hx : w.objs[o]? = some x) (hd : w.dicts[x.attrs]? = some d) (h1 : x.binEdges = .arr a)
    (h2 : d.edges = .arr a) (hl : w.arrs[a]? = some l) (hi : i < l.length) : ∃ s, look w o = some s ∧ s.binEdges = .arr l ∧
      look (step e w (.poke a i v)).1 o = some { s with binEdges := .arr (l.set i v), edges := .arr (l.set i v) } := by
  have hlt := (List.getElem?_eq_some_iff.1 hl).1
  refine ⟨stateOf w x d, ?_, ?_, ?_⟩
  · simp only [look, hx, hd]
  · simp [stateOf, World.value, h1, hl]
  · simp only [step, hl, if_pos hi, look, hx, hd, stateOf, World.value, h1, h2, List.getElem?_set_self hlt, Option.getD_some]

/-! ## Construction and runs -/

/-- **Construction** with an array of edges: succeeds exactly if the columns are there, and then has the histogram of the catalog, the volumes of the shells and the midpoints. -/
theorem make_array (e : Env) (w : World) (a : Args) (k : Nat) (l : List ℚ) (c : Cat) (hc : w.cats[a.source]? = some c) (hb : a.bins = .seq (.arr k)) (hl : w.arrs[k]? = some l) :
    (∀ z wt, c.cols a.redshift = some z → (a.weight = none ∧ wt = none ∨ ∃ n v, a.weight = some n ∧ c.cols n = some v ∧ wt = some v) →
      ∃ w', make e w a = .ok w' ∧ look w' w.objs.length = some ⟨.arr l, ⟨List.zipWith (fun x y => (x + y) / 2) l.dropLast l.tail, Zhist.volumes e.pi a.fsky (e.dist a.cosmo) l,
        Zhist.nbar e.pi a.fsky (e.dist a.cosmo) l (pairs z wt)⟩, .arr l, a.fsky, a.redshift, a.weight, a.cosmo⟩) ∧
    ((c.cols a.redshift = none ∨ ∃ n, a.weight = some n ∧ c.cols n = none) → make e w a = .error .valueError) := by
  have hlt := (List.getElem?_eq_some_iff.1 hl).1
  constructor
  · intro z wt hz hw
    have hcol : columns c a.redshift a.weight = .ok (pairs z wt) := by
      unfold columns
      rcases hw with ⟨h1, rfl⟩ | ⟨n, v, h1, h2, rfl⟩
      · simp only [bind, Except.bind, hz, Option.elim, h1, pure, Except.pure]
      · simp only [bind, Except.bind, hz, Option.elim, h1, h2, pure, Except.pure]
    have hn : ¬ (a.weight.elim false (fun n => (c.cols n).isNone) = true) := by
      rcases hw with ⟨h1, rfl⟩ | ⟨n, v, h1, h2, rfl⟩
      · simp [h1]
      · simp [h1, h2]
    have hh : w.has (.arr k) = true := by simpa [World.has] using hlt
    have hmid : (fun x y : ℚ => (1 / 2) * (x + y)) = fun x y => (x + y) / 2 := by funext x y; ring
    refine ⟨{ w with dicts := w.dicts ++ [⟨.arr k, a.fsky, a.redshift, a.weight, a.cosmo⟩], objs := w.objs ++ [⟨some (a.source, a.cosmo), some c.comm, w.dicts.length, .arr k,
      ⟨List.zipWith (fun x y => (1 / 2) * (x + y)) l.dropLast l.tail, Zhist.volumes e.pi a.fsky (e.dist a.cosmo) l, Zhist.nbar e.pi a.fsky (e.dist a.cosmo) l (pairs z wt)⟩⟩] }, ?_, ?_⟩
    · unfold make
      simp only [hc, hz, if_neg hn, edgesOf, hb, hh, if_true, runWith, hcol, centersOf, World.nums, hl, Option.getD_some]
    · simp only [look, List.getElem?_append_right (Nat.le_refl _), Nat.sub_self, List.getElem?_cons_zero, stateOf, World.value, hl, Option.getD_some, hmid]
  · rintro (h | ⟨n, h1, h2⟩)
    · simp only [make, hc, h]
    · cases hz : c.cols a.redshift with
      | none => simp only [make, hc, hz]
      | some z => simp [make, hc, hz, h1, h2]

/-- Without bins the edges are those of Scott's rule, in an array that nobody else has. -/
theorem make_scott (e : Env) (w : World) (a : Args) (c : Cat) (z : List (List ℚ)) (hc : w.cats[a.source]? = some c) (hz : c.cols a.redshift = some z) (ha : a.weight = none) (hb : a.bins = .none) :
    make e w a = match Zhist.scottEdges (e.width z) z with
      | .error _ => .error .valueError
      | .ok l => make e { w with arrs := w.arrs ++ [l] } { a with bins := .seq (.arr w.arrs.length) } := by
  have hm : (z.map fun l => l.map fun x => (x, (1 : ℚ))).map (fun l => l.map Prod.fst) = z := by
    simp [List.map_map, Function.comp_def]
  have herr : ∀ er, Zhist.scottEdges (e.width z) z = .error er → er = .valueError := by
    intro er h
    simp only [Zhist.scottEdges, bind, Except.bind] at h
    split at h
    · rename_i er' h'
      cases h
      have : ∀ (D : List (List ℚ)) er, D.mapM Zhist.localMinMax = .error er → er = .valueError := by
        intro D
        induction D with
        | nil => intro er h; cases h
        | cons d D ih =>
          intro er h
          rw [List.mapM_cons] at h
          simp only [bind, Except.bind] at h
          split at h
          · rename_i er2 h2
            cases h
            cases d with
            | nil => cases h2; rfl
            | cons _ _ => cases h2
          · split at h
            · rename_i er2 h2
              cases h
              exact ih _ h2
            · cases h
      exact this _ _ h'
    · cases h
  unfold make
  simp only [hc, hz, ha, Option.elim, Bool.false_eq_true, if_false, edgesOf, hb, Zhist.initEdges, hm]
  cases hS : Zhist.scottEdges (e.width z) z with
  | error er => rw [herr er hS]; rfl
  | ok l => simp only [World.has, List.length_append, List.length_singleton, Nat.lt_succ_self, decide_true, if_true]

/-- A list of edges, which the documentation allows, is a `TypeError`. -/
theorem make_list (e : Env) (w : World) (a : Args) (l : List ℚ) (c : Cat) (z : List (List ℚ)) (hc : w.cats[a.source]? = some c) (hb : a.bins = .seq (.list l)) (hz : c.cols a.redshift = some z)
    (hw : ∀ n, a.weight = some n → (c.cols n).isSome = true) : make e w a = .error .typeError := by
  have hn : ¬ (a.weight.elim false (fun n => (c.cols n).isNone) = true) := by
    cases h : a.weight with
    | none => simp
    | some n =>
      have := hw n h
      obtain ⟨v, hv⟩ := Option.isSome_iff_exists.1 this
      simp [hv]
  have hcol : ∃ D, columns c a.redshift a.weight = .ok D := by
    unfold columns
    cases h : a.weight with
    | none => exact ⟨pairs z none, by simp only [bind, Except.bind, hz, Option.elim, pure, Except.pure]⟩
    | some n =>
      obtain ⟨v, hv⟩ := Option.isSome_iff_exists.1 (hw n h)
      exact ⟨pairs z (some v), by simp only [bind, Except.bind, hz, Option.elim, hv, pure, Except.pure]⟩
  obtain ⟨D, hD⟩ := hcol
  unfold make
  simp only [hc, hz, if_neg hn, edgesOf, hb, World.has, if_true, runWith, hD, centersOf]

/-- An integer number of bins never works. -/
theorem make_int (e : Env) (w : World) (a : Args) (n : Nat) (hb : a.bins = .int n) : ∀ w', make e w a ≠ .ok w' := by
  intro w' h
  obtain ⟨w1, c, z, s, r, hc, hz, hwt, hs, hr, rfl⟩ := make_world e w a w' h
  rw [hb] at hs
  simp only [edgesOf] at hs
  split at hs
  · cases hs
  · rename_i l hl
    simp only [Zhist.initEdges, bind, Except.bind] at hl
    split at hl <;> cases hl

/-- **A second run** gives what a new object gives, made now with the `attrs` of now. -/
theorem rerun_is_new (e : Env) (w : World) (hw : Wf w) (o : Nat) (x : Obj) (d : Attrs) (s c : Nat) (hx : w.objs[o]? = some x) (hd : w.dicts[x.attrs]? = some d) (hs : x.src = some (s, c))
    (w' : World) (hm : make e w ⟨s, d.fsky, c, .seq d.edges, d.redshift, d.weight⟩ = .ok w') :
    (step e w (.run o)).2 = .unit ∧ ∃ y, w'.objs[w.objs.length]? = some y ∧ (step e w (.run o)).1.objs[o]? = some { x with binEdges := y.binEdges, res := y.res } := by
  have hlt := (List.getElem?_eq_some_iff.1 hx).1
  obtain ⟨w1, c', z, s', r, hc, hz, hwt, hs', hr, rfl⟩ := make_world e w _ w' hm
  simp only [edgesOf] at hs'
  rw [if_pos (hw.dict _ d hd)] at hs'
  cases hs'
  have hrun : runWith e w x.src d = .done d.edges r := by
    rw [hs]
    simp only [runWith] at hr ⊢
    exact hr
  refine ⟨?_, ?_⟩
  · simp only [step, hx, hd, hrun]
  · refine ⟨⟨some (s, c), some c'.comm, w.dicts.length, d.edges, r⟩, ?_, ?_⟩
    · simp only [List.getElem?_append_right (Nat.le_refl _), Nat.sub_self, List.getElem?_cons_zero]
    · simp only [step, hx, hd, hrun, List.getElem?_set_self hlt]

/-- **A run that fails half-way**: with a list set as edges, `bin_edges` is the list and all else is old. -/
theorem half_run (e : Env) (w : World) (o : Nat) (x : Obj) (d : Attrs) (s c : Nat) (cat : Cat) (D : List (List (ℚ × ℚ))) (l : List ℚ) (hx : w.objs[o]? = some x) (hd : w.dicts[x.attrs]? = some d)
    (hs : x.src = some (s, c)) (hc : w.cats[s]? = some cat) (hD : columns cat d.redshift d.weight = .ok D) (hk : d.edges = .list l) :
    (step e w (.run o)).2 = .error .typeError ∧ (step e w (.run o)).1.objs[o]? = some { x with binEdges := .list l } := by
  have hlt := (List.getElem?_eq_some_iff.1 hx).1
  have hrun : runWith e w x.src d = .half (.list l) .typeError := by
    rw [hs]
    simp only [runWith, hc, hD, hk, centersOf]
  simp only [step, hx, hd, hrun, List.getElem?_set_self hlt, and_self]

/-! ## Copies, pickles and files -/

theorem step_file (e : Env) (w : World) (op : Op) (p : String) (h : ∀ o, op ≠ .save o p) : (step e w op).1.files p = w.files p := by
  cases op with
  | make a =>
    simp only [step]
    split
    · rfl
    · rename_i w' hw
      obtain ⟨w1, c, z, s, r, hc, hz, hwt, hs, hr, rfl⟩ := make_world e w a w' hw
      have := (edgesOf_spec e w z a.bins w1 s hs).2.2.2.1
      simp only [this]
  | run o =>
    simp only [step]
    split
    · rfl
    · split
      · rfl
      · split <;> rfl
  | setAttr o q =>
    simp only [step]
    split
    · rfl
    · split
      · rfl
      · split <;> rfl
  | poke a i v =>
    simp only [step]
    split
    · rfl
    · split <;> rfl
  | setCol c n v => simp only [step]; split <;> rfl
  | copy o => simp only [step]; split <;> rfl
  | pickle o =>
    simp only [step]
    split
    · rfl
    split <;> rfl
  | save o path =>
    simp only [step]
    split
    · rfl
    · split
      · rfl
      · rfl
      · have : p ≠ path := by rintro rfl; exact h o rfl
        simp only [if_neg this]
  | load path comm =>
    simp only [step]
    split <;> rfl

theorem file_kept (e : Env) (p : String) (l : List Op) (hl : ∀ o, Op.save o p ∉ l) : ∀ w : World, (run e w l).files p = w.files p := by
  induction l with
  | nil => intro w; rfl
  | cons op l ih =>
    intro w
    exact (ih (fun o h => hl o (by simp [h])) _).trans (step_file e w op p (fun o hh => hl o (by simp [hh])))

/-- **Saved and loaded**: whatever happens between, as long as the file is not written again, the loaded object is seen as the saved one was. -/
theorem save_load (e : Env) (w : World) (o : Nat) (p : String) (hs : (step e w (.save o p)).2 = .unit) (l : List Op) (hl : ∀ o', Op.save o' p ∉ l) (comm : Nat) :
    (step e (run e (step e w (.save o p)).1 l) (.load p comm)).2 = .unit ∧
    look (step e (run e (step e w (.save o p)).1 l) (.load p comm)).1 (run e (step e w (.save o p)).1 l).objs.length = look w o ∧ (look w o).isSome = true := by
  have hf : ∃ f, look w o = some f ∧ (step e w (.save o p)).1.files p = some f := by
    simp only [step] at hs ⊢
    split at hs
    · cases hs
    · rename_i x hx
      split at hs
      · cases hs
      · cases hs
      · rename_i c d hc hd
        refine ⟨stateOf w x d, ?_, ?_⟩
        · simp only [look, hx, hd]
        · simp only [hx, hc, hd, if_true]
  obtain ⟨f, hf1, hf2⟩ := hf
  have hf3 := (file_kept e p l hl (step e w (.save o p)).1).trans hf2
  generalize run e (step e w (.save o p)).1 l = t at *
  rw [hf1]
  obtain ⟨a1, a2, a3⟩ := alloc_spec t f.binEdges
  obtain ⟨b1, b2, b3⟩ := alloc_spec { t with arrs := (alloc t.arrs f.binEdges).1 } f.edges
  refine ⟨by simp only [step, hf3], ?_, rfl⟩
  simp only [step, hf3, look, List.getElem?_append_right (Nat.le_refl _), Nat.sub_self, List.getElem?_cons_zero, stateOf]
  dsimp only at b1 b2 b3
  have hv2 := fun w' h => (b3 w' h).2
  have hv1 : ∀ w' : World, w'.arrs = (alloc (alloc t.arrs f.binEdges).1 f.edges).1 → w'.value (alloc t.arrs f.binEdges).2 = f.binEdges := by
    intro w' h
    rw [value_eq { t with arrs := (alloc t.arrs f.binEdges).1 } w' _ (a3 _ rfl).1 (by intro k hk; rw [h]; exact b2 k hk)]
    exact (a3 _ rfl).2
  rw [hv1 _ rfl, hv2 _ rfl]

/-- **Pickled**: the unpickled object is seen as the other, shares nothing with it, and has no source and no communicator. -/
theorem pickle_spec (e : Env) (w : World) (hw : Wf w) (o : Nat) (ho : o < w.objs.length) : (step e w (.pickle o)).2 = .unit ∧ look (step e w (.pickle o)).1 w.objs.length = look w o ∧
    ∃ y, (step e w (.pickle o)).1.objs[w.objs.length]? = some y ∧ y.src = none ∧ y.comm = none ∧ w.dicts.length ≤ y.attrs ∧ (∀ a, y.binEdges = .arr a → w.arrs.length ≤ a) ∧
      ∀ d, (step e w (.pickle o)).1.dicts[y.attrs]? = some d → ∀ a, d.edges = .arr a → w.arrs.length ≤ a := by
  obtain ⟨x, hx⟩ : ∃ x, w.objs[o]? = some x := ⟨_, List.getElem?_eq_getElem ho⟩
  obtain ⟨hd, hb⟩ := hw.obj o x hx
  obtain ⟨d, hd'⟩ : ∃ d, w.dicts[x.attrs]? = some d := ⟨_, List.getElem?_eq_getElem hd⟩
  obtain ⟨a1, a2, a3⟩ := alloc_spec w (w.value x.binEdges)
  obtain ⟨b1, b2, b3⟩ := alloc_spec { w with arrs := (alloc w.arrs (w.value x.binEdges)).1 } (w.value d.edges)
  have new : ∀ (arrs : List (List ℚ)) (v : SeqV) (a : Nat), (alloc arrs v).2 = .arr a → arrs.length ≤ a := by
    intro arrs v a h
    cases v with
    | arr l => simp only [alloc, Seq.arr.injEq] at h; omega
    | list l => simp [alloc] at h
  dsimp only at b1 b2 b3
  by_cases hs : d.edges = x.binEdges
  · refine ⟨by simp only [step, hx, hd'], ?_, ?_⟩
    · simp only [step, hx, hd', if_pos hs, look, List.getElem?_append_right (Nat.le_refl _), Nat.sub_self, List.getElem?_cons_zero, stateOf]
      rw [(a3 _ rfl).2, hs]
    · simp only [step, hx, hd', if_pos hs, List.getElem?_append_right (Nat.le_refl _), Nat.sub_self, List.getElem?_cons_zero]
      refine ⟨_, rfl, rfl, rfl, Nat.le_refl _, fun a h => new _ _ a h, ?_⟩
      intro d' hd' a ha
      simp only [List.getElem?_append_right (Nat.le_refl _), Nat.sub_self, List.getElem?_cons_zero, Option.some.injEq] at hd'
      subst hd'
      exact new _ _ a ha
  · refine ⟨by simp only [step, hx, hd'], ?_, ?_⟩
    · simp only [step, hx, hd', if_neg hs, look, List.getElem?_append_right (Nat.le_refl _), Nat.sub_self, List.getElem?_cons_zero, stateOf]
      have hv1 : ∀ w' : World, w'.arrs = (alloc (alloc w.arrs (w.value x.binEdges)).1 (w.value d.edges)).1 → w'.value (alloc w.arrs (w.value x.binEdges)).2 = w.value x.binEdges := by
        intro w' h
        rw [value_eq { w with arrs := (alloc w.arrs (w.value x.binEdges)).1 } w' _ (a3 _ rfl).1 (by intro k hk; rw [h]; exact b2 k hk)]
        exact (a3 _ rfl).2
      rw [hv1 _ rfl, (b3 _ rfl).2]
    · simp only [step, hx, hd', if_neg hs, List.getElem?_append_right (Nat.le_refl _), Nat.sub_self, List.getElem?_cons_zero]
      refine ⟨_, rfl, rfl, rfl, Nat.le_refl _, fun a h => new _ _ a h, ?_⟩
      intro d' hd' a ha
      simp only [List.getElem?_append_right (Nat.le_refl _), Nat.sub_self, List.getElem?_cons_zero, Option.some.injEq] at hd'
      subst hd'
      exact Nat.le_trans a1 (new _ _ a ha)

/-- Inside an unpickled object `bin_edges` still is `attrs['edges']` if it was; in a loaded one they are two arrays. -/
theorem edges_inside (e : Env) (w : World) (o : Nat) (x : Obj) (d : Attrs) (hx : w.objs[o]? = some x) (hd : w.dicts[x.attrs]? = some d) :
    (d.edges = x.binEdges → ∃ y d', (step e w (.pickle o)).1.objs[w.objs.length]? = some y ∧ (step e w (.pickle o)).1.dicts[y.attrs]? = some d' ∧ d'.edges = y.binEdges) ∧
    ∀ p comm f l l', w.files p = some f → f.binEdges = .arr l → f.edges = .arr l' →
      ∃ y d', (step e w (.load p comm)).1.objs[w.objs.length]? = some y ∧ (step e w (.load p comm)).1.dicts[y.attrs]? = some d' ∧ d'.edges ≠ y.binEdges := by
  constructor
  · intro h
    simp only [step, hx, hd, if_pos h, List.getElem?_append_right (Nat.le_refl _), Nat.sub_self, List.getElem?_cons_zero]
    exact ⟨_, _, rfl, by simp only [List.getElem?_append_right (Nat.le_refl _), Nat.sub_self, List.getElem?_cons_zero]; rfl, rfl⟩
  · intro p comm f l l' hf h1 h2
    simp only [step, hf, List.getElem?_append_right (Nat.le_refl _), Nat.sub_self, List.getElem?_cons_zero]
    refine ⟨_, _, rfl, by simp only [List.getElem?_append_right (Nat.le_refl _), Nat.sub_self, List.getElem?_cons_zero]; rfl, ?_⟩
    simp [h1, h2, alloc]

/-- **Copies share**: a key set in the `attrs` of a copy is set in the original. -/
theorem copy_shares (e : Env) (w : World) (o : Nat) (x : Obj) (d : Attrs) (hx : w.objs[o]? = some x) (hd : w.dicts[x.attrs]? = some d) (q : ℚ) :
    look (step e (step e w (.copy o)).1 (.setAttr w.objs.length (.fsky q))).1 o = some { stateOf w x d with fsky := q } := by
  have hlt := (List.getElem?_eq_some_iff.1 hx).1
  have hdl := (List.getElem?_eq_some_iff.1 hd).1
  simp only [step, hx, List.getElem?_append_right (Nat.le_refl _), Nat.sub_self, List.getElem?_cons_zero, hd, Key.ok, if_true, look, List.getElem?_append_left hlt, List.getElem?_set_self hdl]
  rfl

theorem run_obj (e : Env) (o : Nat) (l : List Op) : ∀ (w : World) (x : Obj), w.objs[o]? = some x → ∃ x', (run e w l).objs[o]? = some x' ∧ x'.src = x.src ∧ x'.comm = x.comm ∧ x'.attrs = x.attrs := by
  induction l with
  | nil => intro w x h; exact ⟨x, h, rfl, rfl, rfl⟩
  | cons op l ih =>
    intro w x h
    obtain ⟨x1, h1, k1, k2, k3, _⟩ := step_obj e w op o x h
    obtain ⟨x2, h2, j1, j2, j3⟩ := ih _ x1 h1
    exact ⟨x2, h2, j1.trans k1, j2.trans k2, j3.trans k3⟩

/-- **Loaded, copied and unpickled objects never run again**, and those without communicator are never saved. -/
theorem restored_forever (e : Env) (w : World) (hw : Wf w) (o : Nat) (x : Obj) (hx : w.objs[o]? = some x) (l : List Op) :
    (x.src = none → step e (run e w l) (.run o) = (run e w l, .error .attributeError)) ∧ (x.comm = none → ∀ p, step e (run e w l) (.save o p) = (run e w l, .error .attributeError)) := by
  obtain ⟨x', h1, h2, h3, h4⟩ := run_obj e o l w x hx
  have hd := ((wf_run e l w hw).obj o x' h1).1
  have hd' : (run e w l).dicts[x'.attrs]? = some _ := List.getElem?_eq_getElem hd
  constructor
  · intro hs
    rw [hs] at h2
    simp only [step, h1, hd', runWith, h2]
  · intro hs p
    rw [hs] at h3
    simp only [step, h1, h3]

/-- What the three ways of restoring an object leave out. -/
theorem restored (e : Env) (w : World) (o : Nat) (x : Obj) (hx : w.objs[o]? = some x) : (step e w (.copy o)).1.objs[w.objs.length]? = some { x with src := none, comm := none } ∧
    ∀ p comm f, w.files p = some f → ∃ y, (step e w (.load p comm)).1.objs[w.objs.length]? = some y ∧ y.src = none ∧ y.comm = some comm := by
  constructor
  · simp only [step, hx, List.getElem?_append_right (Nat.le_refl _), Nat.sub_self, List.getElem?_cons_zero]
  · intro p comm f hf
    simp only [step, hf, List.getElem?_append_right (Nat.le_refl _), Nat.sub_self, List.getElem?_cons_zero]
    exact ⟨_, rfl, rfl, rfl⟩

/-! ## A program -/

def exEnv : Env := ⟨3, fun c z => z * (c + 1), fun _ => 1⟩

def exCats : List Cat := [⟨0, fun n => if n = "Redshift" then some [[1/2, 3/2], [], [3/2]] else if n = "W" then some [[2, 3], [], [4]] else none⟩]

def exWorld : World := ⟨[[0, 1, 2]], [], exCats, [], fun _ => none⟩

def outs (e : Env) : World → List Op → List Out
  | _, [] => []
  | w, op :: l => (step e w op).2 :: outs e (step e w op).1 l

def exProg : List Op := [.make ⟨0, 1/2, 0, .seq (.arr 0), "Redshift", some "W"⟩, .save 0 "f", .poke 0 2 3, .pickle 0, .load "f" 7, .copy 0, .run 1, .save 1 "g", .save 2 "f", .run 2,
  .make ⟨0, 1/2, 0, .int 3, "Redshift", none⟩, .make ⟨0, 1/2, 0, .seq (.list [0, 1]), "Redshift", none⟩, .make ⟨0, 1/2, 0, .none, "Redshift", none⟩, .make ⟨0, 1/2, 0, .seq (.arr 0), "z", none⟩,
  .setAttr 0 (.weight none), .run 0]

theorem wf_exWorld : Wf exWorld := ⟨by intro k d h; simp [exWorld] at h, by intro o x h; simp [exWorld] at h⟩

/-- An array of edges given by the user, changed after a file was written; the pickled object has the changed edges and the old densities, the loaded one the old edges, the second run is new. -/
theorem case_program : outs exEnv exWorld exProg = [.unit, .unit, .unit, .unit, .unit, .unit, .error .attributeError, .error .attributeError, .unit, .error .attributeError, .error .valueError,
      .error .typeError, .error .valueError, .error .valueError, .unit, .unit] ∧
    (look (run exEnv exWorld (exProg.take 6)) 0).map (fun s => (s.binEdges, s.res)) = some (.arr [0, 1, 3], ⟨[1/2, 3/2], [2, 14], [some 1, some (1/2)]⟩) ∧
    (look (run exEnv exWorld exProg) 1).map (fun s => (s.binEdges, s.res)) = some (.arr [0, 1, 3], ⟨[1/2, 3/2], [2, 14], [some 1, some (1/2)]⟩) ∧
    (look (run exEnv exWorld exProg) 2).map (fun s => (s.binEdges, s.res)) = some (.arr [0, 1, 2], ⟨[1/2, 3/2], [2, 14], [some 1, some (1/2)]⟩) ∧
    (look (run exEnv exWorld exProg) 0).map (fun s => (s.binEdges, s.res)) = some (.arr [0, 1, 3], ⟨[1/2, 2], [2, 52], [some (1/2), some (1/26)]⟩) := by
  refine ⟨?_, ?_, ?_, ?_, ?_⟩ <;> decide +kernel

end NBK.ZhistObj
