import Verif.Catalog.Model

/-!
# C16, C17: column look-up order, independence of copies
-/
set_option linter.unusedSimpArgs false
namespace NBK.Catalog

variable {ρ V : Type}

/-! ## C16 -/

/-- Specification: the value assigned to column `c` that is in force after a history, looking only at the updates of
column `c`: a set with an array of the right length (or a scalar) assigns, a delete un-assigns unless the column
is hard-coded. -/
def assigned (n : Nat) (isHard : Bool) (c : String) : Option (List ρ) → List (Upd ρ V) → Option (List ρ)
  | cur, [] => cur
  | cur, .set _ c' v :: us =>
    match v with
    | .scalar x => assigned n isHard c (if c' = c then some (List.replicate n x) else cur) us
    | .arr l => assigned n isHard c (if c' = c ∧ l.length = n then some l else cur) us
  | cur, .del _ c' :: us => assigned n isHard c (if c' = c ∧ isHard = false then none else cur) us
  | cur, .attr _ _ _ :: us => assigned n isHard c cur us

theorem owner_step (h : Heap ρ V) (u : Upd ρ V) : (step h u).base = h.base := by
  cases u with
  | set i c v => simp only [step]; split <;> rfl
  | del i c => simp only [step]; split <;> rfl
  | attr i k v => simp only [step, attrsOf]; split <;> rfl

theorem obj_step_other (h : Heap ρ V) (u : Upd ρ V) (w : Nat)
    (hw : (∃ i k v, u = .attr i k v) ∨ owner h.base u.target ≠ w) :
    (step h u).obj w = h.obj w := by
  cases u with
  | set i c v =>
    have : w ≠ owner h.base i := by
      rcases hw with ⟨_, _, _, h⟩ | h
      · cases h
      · exact fun e => h e.symm
    simp only [step]
    split <;> simp [put, this]
  | del i c =>
    have : w ≠ owner h.base i := by
      rcases hw with ⟨_, _, _, h⟩ | h
      · cases h
      · exact fun e => h e.symm
    simp only [step]
    split <;> simp [put, this]
  | attr i k v => simp only [step, attrsOf]; split <;> rfl

theorem Obj.get_over (o : Obj ρ) (c : String) : o.get c =
    match (o.over c).or ((o.cls.hard c).or ((o.cls.dflt c).map (· o.size))) with
    | some v => .ok v
    | none => .error .keyError := by
  unfold Obj.get
  cases o.over c <;> simp
  cases o.cls.hard c <;> simp
  cases o.cls.dflt c <;> simp

theorem step_same (h : Heap ρ V) (u : Upd ρ V) (w : Nat) (hu : owner h.base u.target = w) (c : String) :
    ((step h u).obj w).cls = (h.obj w).cls ∧ ((step h u).obj w).size = (h.obj w).size ∧
    ((step h u).obj w).over c
      = assigned (h.obj w).size ((h.obj w).cls.hard c).isSome c ((h.obj w).over c) [u] := by
  cases u with
  | set i c' v =>
    simp only [Upd.target] at hu
    simp only [step, hu, Obj.set]
    cases v with
    | scalar x =>
      simp only [Value.toCol, List.length_replicate, if_true, put, assigned]
      refine ⟨trivial, trivial, ?_⟩
      by_cases hc : c = c'
      · simp [hc]
      · have : ¬ c' = c := fun e => hc e.symm
        simp [hc, this]
    | arr l =>
      simp only [Value.toCol, assigned]
      by_cases hl : l.length = (h.obj w).size
      · simp only [hl, if_true, put, and_true]
        refine ⟨trivial, trivial, ?_⟩
        by_cases hc : c = c'
        · simp [hc]
        · have : ¬ c' = c := fun e => hc e.symm
          simp [hc, this]
      · simp [hl]
  | del i c' =>
    simp only [Upd.target] at hu
    simp only [step, hu, Obj.del, assigned]
    rw [Obj.get_over]
    by_cases hc : c = c'
    · subst hc
      cases h1 : (h.obj w).over c <;> cases h2 : (h.obj w).cls.hard c <;> cases h3 : (h.obj w).cls.dflt c <;>
        simp [h1, h2, h3, put]
    · have hc' : ¬ c' = c := fun e => hc e.symm
      simp only [hc', false_and, if_false]
      cases h1 : (h.obj w).over c' <;> cases h2 : (h.obj w).cls.hard c' <;> cases h3 : (h.obj w).cls.dflt c' <;>
        simp [h1, h2, h3, put, hc]
  | attr i k v => simp only [step, attrsOf, assigned]; split <;> simp

theorem assigned_append (n : Nat) (b : Bool) (c : String) (cur : Option (List ρ)) (us vs : List (Upd ρ V)) :
    assigned n b c cur (us ++ vs) = assigned n b c (assigned n b c cur us) vs := by
  induction us generalizing cur with
  | nil => rfl
  | cons u us ih =>
    cases u with
    | set i c' v => cases v <;> simp only [List.cons_append, assigned, ih]
    | del i c' => simp only [List.cons_append, assigned, ih]
    | attr i k v => simp only [List.cons_append, assigned, ih]

theorem run_base (h : Heap ρ V) (us : List (Upd ρ V)) : (run h us).base = h.base := by
  induction us generalizing h with
  | nil => rfl
  | cons u us ih => show (run (step h u) us).base = _; rw [ih, owner_step]

theorem run_same (h : Heap ρ V) (us : List (Upd ρ V)) (w : Nat) (c : String)
    (hu : ∀ u ∈ us, owner h.base u.target = w) :
    ((run h us).obj w).cls = (h.obj w).cls ∧ ((run h us).obj w).size = (h.obj w).size ∧
    ((run h us).obj w).over c = assigned (h.obj w).size ((h.obj w).cls.hard c).isSome c ((h.obj w).over c) us := by
  induction us generalizing h with
  | nil => exact ⟨rfl, rfl, rfl⟩
  | cons u us ih =>
    obtain ⟨a1, a2, a3⟩ := step_same h u w (hu u (by simp)) c
    obtain ⟨b1, b2, b3⟩ := ih (step h u) (fun u' hu' => by rw [owner_step]; exact hu u' (by simp [hu']))
    show ((run (step h u) us).obj w).cls = _ ∧ ((run (step h u) us).obj w).size = _ ∧
      ((run (step h u) us).obj w).over c = _
    refine ⟨b1.trans a1, b2.trans a2, ?_⟩
    rw [b3, a1, a2, a3]
    exact (assigned_append _ _ _ _ [u] us).symm

/-- C16: after any history of updates addressed to a catalog (or to any view of it), reading a column gives the last
value assigned and not deleted, else the hard-coded column, else the default column, else KeyError. In particular
updates of other columns, rejected updates and attrs have no influence. -/
theorem read_after_history (h : Heap ρ V) (us : List (Upd ρ V)) (i : Nat) (c : String)
    (hu : ∀ u ∈ us, owner h.base u.target = owner h.base i) :
    getCol (run h us) i c =
      match assigned (h.obj (owner h.base i)).size ((h.obj (owner h.base i)).cls.hard c).isSome c
          ((h.obj (owner h.base i)).over c) us with
      | some v => .ok v
      | none => match (h.obj (owner h.base i)).cls.hard c with
        | some v => .ok v
        | none => match (h.obj (owner h.base i)).cls.dflt c with
          | some f => .ok (f (h.obj (owner h.base i)).size)
          | none => .error .keyError := by
  obtain ⟨k1, k2, k3⟩ := run_same h us _ c hu
  unfold getCol
  rw [run_base]
  unfold Obj.get
  rw [k1, k2, k3]
  generalize assigned _ _ _ _ us = a
  cases a with
  | some v => rfl
  | none =>
    simp only
    cases (h.obj (owner h.base i)).cls.hard c with
    | some v => rfl
    | none => rfl

/-- C16, errors: an array is accepted iff it has the length of the catalog, otherwise an AssertionError is raised and
nothing changes; a scalar is always accepted. -/
theorem set_outcome (o : Obj ρ) (c : String) (l : List ρ) (x : ρ) :
    ((∃ o', o.set c (.arr l) = .ok o') ↔ l.length = o.size) ∧
    (l.length ≠ o.size → o.set c (.arr l) = .error .assertionError) ∧ (∃ o', o.set c (.scalar x) = .ok o') := by
  refine ⟨⟨?_, ?_⟩, ?_, ?_⟩
  · rintro ⟨o', h⟩
    by_cases hl : l.length = o.size
    · exact hl
    · simp [Obj.set, Value.toCol, hl] at h
  · intro hl; simp [Obj.set, Value.toCol, hl]
  · intro hl; simp [Obj.set, Value.toCol, hl]
  · simp [Obj.set, Value.toCol]

/-- C16, errors: deleting succeeds iff the column is assigned and not hard-coded; then the default (or nothing) shows.
A hard-coded column cannot be deleted, not even an assigned column of the same name. -/
theorem del_outcome (o : Obj ρ) (c : String) :
    ((∃ o', o.del c = .ok o') ↔ o.over c ≠ none ∧ o.cls.hard c = none) ∧
    (∀ e, o.del c = .error e → e = .valueError) ∧
    (∀ o', o.del c = .ok o' → o'.get c = match o.cls.dflt c with | some f => .ok (f o.size) | none => .error .keyError) := by
  unfold Obj.del
  rw [Obj.get_over]
  cases h1 : o.over c <;> cases h2 : o.cls.hard c <;> cases h3 : o.cls.dflt c <;> simp [h1, h2, h3, Obj.get]

/-- Non-vacuity: a column is set twice (once with a wrong length), hides the hard-coded one and cannot be deleted;
a user column can. -/
example :
    let cls : Cls Nat := ⟨fun c => if c = "Position" then some [1, 2] else none, fun c => if c = "Weight" then some (fun n => List.replicate n 1) else none⟩
    let h : Heap Nat Nat := ⟨fun _ => ⟨cls, 2, fun _ => none⟩, fun i => if i = 1 then some 0 else none, fun _ => none, fun _ _ => none, 2, 0⟩
    let h' := run h [.set 0 "Position" (.arr [3, 4]), .set 1 "Position" (.arr [5]), .set 1 "Weight" (.scalar 9),
      .del 0 "Position", .del 1 "Weight"]
    getCol h' 0 "Position" = .ok [3, 4] ∧ getCol h' 1 "Weight" = .ok [1, 1] ∧ getCol h' 0 "x" = .error .keyError := by
  simp [run, step, getCol, owner, Obj.get, Obj.set, Obj.del, Value.toCol, put]

/-! ## C17 -/

/-- References point to allocated dicts and objects. -/
structure Valid (h : Heap ρ V) : Prop where
  attrs : ∀ i r, h.attrs i = some r → r < h.ndict
  base : ∀ i b, h.base i = some b → b < i

/-- Two objects share neither columns nor attrs. -/
structure Unaliased (h : Heap ρ V) (i j : Nat) : Prop where
  ne : i ≠ j
  cols : owner h.base i ≠ owner h.base j
  attrs : ∀ r, h.attrs i = some r → h.attrs j ≠ some r

theorem Unaliased.symm {h : Heap ρ V} {i j : Nat} (u : Unaliased h i j) : Unaliased h j i :=
  ⟨u.ne.symm, u.cols.symm, fun r hj hi => u.attrs r hi hj⟩

theorem owner_le (base : Nat → Option Nat) (i : Nat) : owner base i ≤ i := by
  induction i using Nat.strongRecOn with
  | ind i ih =>
    unfold owner
    split
    · exact Nat.le_refl _
    · split
      · rename_i b _ hb; have := ih b hb; omega
      · exact Nat.le_refl _

theorem owner_put (base : Nat → Option Nat) (n : Nat) (x : Option Nat) (i : Nat) (hi : i < n) :
    owner (put base n x) i = owner base i := by
  induction i using Nat.strongRecOn with
  | ind i ih =>
    have hb : put base n x i = base i := by have : i ≠ n := by omega
                                            simp [put, this]
    rw [owner, owner, hb]
    split
    · rfl
    · split
      · rename_i b _ hlt; exact ih b hlt (by omega)
      · rfl

theorem step_attrs_col (h : Heap ρ V) (u : Upd ρ V) (hu : ∀ i k v, u ≠ .attr i k v) (j : Nat) :
    (step h u).attrs j = h.attrs j ∧ (step h u).ndict = h.ndict ∧ attrsView (step h u) j = attrsView h j := by
  cases u with
  | set i c v => simp only [step]; split <;> simp [attrsView]
  | del i c => simp only [step]; split <;> simp [attrsView]
  | attr i k v => exact absurd rfl (hu i k v)

theorem attr_view_self (h : Heap ρ V) (i : Nat) (k : String) (v : V) :
    attrsView (step h (.attr i k v)) i = fun k' => if k' = k then some v else attrsView h i k' := by
  simp only [step, attrsOf, attrsView]
  cases h1 : h.attrs i with
  | some r => funext k'; simp [h1, put]
  | none => funext k'; simp [h1, put]

theorem attr_view_other (h : Heap ρ V) (i j : Nat) (k : String) (v : V) (hv : Valid h) (hu : Unaliased h i j) :
    attrsView (step h (.attr i k v)) j = attrsView h j := by
  simp only [step, attrsOf, attrsView]
  have hne : j ≠ i := hu.ne.symm
  cases h1 : h.attrs i with
  | some r =>
    cases h2 : h.attrs j with
    | none => simp [h1, h2]
    | some r' =>
      have : r' ≠ r := fun e => hu.attrs r h1 (by rw [h2, e])
      simp [h1, h2, put, this]
  | none =>
    cases h2 : h.attrs j with
    | none => simp [h1, h2, put, hne]
    | some r' =>
      have := hv.attrs j r' h2
      have : r' ≠ h.ndict := by omega
      simp [h1, h2, put, hne, this]

theorem valid_step (h : Heap ρ V) (u : Upd ρ V) (hv : Valid h) : Valid (step h u) := by
  refine ⟨?_, by rw [owner_step]; exact hv.base⟩
  intro j r hj
  cases u with
  | set i c v =>
    obtain ⟨a, b, _⟩ := step_attrs_col h (.set i c v) (by intros; simp) j
    rw [a] at hj; rw [b]; exact hv.attrs j r hj
  | del i c =>
    obtain ⟨a, b, _⟩ := step_attrs_col h (.del i c) (by intros; simp) j
    rw [a] at hj; rw [b]; exact hv.attrs j r hj
  | attr i k v =>
    simp only [step, attrsOf] at hj ⊢
    cases h1 : h.attrs i with
    | some r' => simp only [h1] at hj ⊢; exact hv.attrs j r hj
    | none =>
      simp only [h1, put] at hj ⊢
      split at hj
      · simp at hj; omega
      · have := hv.attrs j r hj; omega

theorem unaliased_step (h : Heap ρ V) (u : Upd ρ V) (i j : Nat) (hv : Valid h) (ha : Unaliased h i j) :
    Unaliased (step h u) i j := by
  refine ⟨ha.ne, by rw [owner_step]; exact ha.cols, ?_⟩
  intro r hi hj
  cases u with
  | set i' c v =>
    rw [(step_attrs_col h (.set i' c v) (by intros; simp) i).1] at hi
    rw [(step_attrs_col h (.set i' c v) (by intros; simp) j).1] at hj
    exact ha.attrs r hi hj
  | del i' c =>
    rw [(step_attrs_col h (.del i' c) (by intros; simp) i).1] at hi
    rw [(step_attrs_col h (.del i' c) (by intros; simp) j).1] at hj
    exact ha.attrs r hi hj
  | attr i' k v =>
    simp only [step, attrsOf] at hi hj
    cases h1 : h.attrs i' with
    | some r' => simp only [h1] at hi hj; exact ha.attrs r hi hj
    | none =>
      simp only [h1, put] at hi hj
      by_cases e1 : i = i'
      · have e2 : ¬ j = i' := fun e => ha.ne (e1.trans e.symm)
        simp only [e1, if_true, Option.some.injEq] at hi
        simp only [e2, if_false] at hj
        have := hv.attrs j r hj; omega
      · simp only [e1, if_false] at hi
        by_cases e2 : j = i'
        · simp only [e2, if_true, Option.some.injEq] at hj
          have := hv.attrs i r hi; omega
        · simp only [e2, if_false] at hj
          exact ha.attrs r hi hj

theorem step_agree (h1 h2 : Heap ρ V) (u : Upd ρ V) (hb : h1.base = h2.base)
    (ho : h1.obj (owner h1.base u.target) = h2.obj (owner h1.base u.target))
    (ha : attrsView h1 u.target = attrsView h2 u.target) :
    (step h1 u).obj (owner h1.base u.target) = (step h2 u).obj (owner h1.base u.target) ∧
    attrsView (step h1 u) u.target = attrsView (step h2 u) u.target := by
  cases u with
  | set i c v =>
    constructor
    · simp only [Upd.target] at ho
      simp only [step, Upd.target, ← hb, ← ho]
      split <;> simp [put, ho]
    · rw [(step_attrs_col h1 (.set i c v) (by intros; simp) _).2.2, (step_attrs_col h2 (.set i c v) (by intros; simp) _).2.2, ha]
  | del i c =>
    constructor
    · simp only [Upd.target] at ho
      simp only [step, Upd.target, ← hb, ← ho]
      split <;> simp [put, ho]
    · rw [(step_attrs_col h1 (.del i c) (by intros; simp) _).2.2, (step_attrs_col h2 (.del i c) (by intros; simp) _).2.2, ha]
  | attr i k v =>
    constructor
    · have e1 := obj_step_other h1 (.attr i k v) (owner h1.base i) (Or.inl ⟨i, k, v, rfl⟩)
      have e2 := obj_step_other h2 (.attr i k v) (owner h1.base i) (Or.inl ⟨i, k, v, rfl⟩)
      simp only [Upd.target] at ho ⊢
      rw [e1, e2, ho]
    · simp only [Upd.target] at ha ⊢
      rw [attr_view_self, attr_view_self, ha]

theorem noninterference_aux (i j : Nat) (us : List (Upd ρ V)) (h1 h2 : Heap ρ V) (hv : Valid h1)
    (ha : Unaliased h1 i j) (hu : ∀ u ∈ us, u.target = i ∨ u.target = j) (hb : h1.base = h2.base)
    (ho : h1.obj (owner h1.base j) = h2.obj (owner h1.base j)) (hat : attrsView h1 j = attrsView h2 j) :
    (run h1 us).obj (owner h1.base j) = (run h2 (us.filter (fun u => u.target = j))).obj (owner h1.base j) ∧
    attrsView (run h1 us) j = attrsView (run h2 (us.filter (fun u => u.target = j))) j := by
  induction us generalizing h1 h2 with
  | nil => exact ⟨ho, hat⟩
  | cons u us ih =>
    have hv' := valid_step h1 u hv
    have ha' := unaliased_step h1 u i j hv ha
    have hu' : ∀ u ∈ us, u.target = i ∨ u.target = j := fun u' h' => hu u' (by simp [h'])
    have hb1 : (step h1 u).base = h1.base := owner_step h1 u
    by_cases ht : u.target = j
    · simp only [List.filter_cons, ht, decide_true, if_true]
      have := step_agree h1 h2 u hb (by rw [ht]; exact ho) (by rw [ht]; exact hat)
      rw [ht] at this
      have key := ih (step h1 u) (step h2 u) hv' ha' hu' (by rw [owner_step, owner_step, hb])
        (by rw [hb1]; exact this.1) this.2
      rw [hb1] at key
      exact key
    · have hi : u.target = i := (hu u (by simp)).resolve_right ht
      simp only [List.filter_cons, ht, decide_false, Bool.false_eq_true, if_false]
      have key := ih (step h1 u) h2 hv' ha' hu' (by rw [owner_step, hb])
        (by
          rw [hb1, ← ho]
          exact obj_step_other h1 u _ (Or.inr (by rw [hi]; exact ha.cols)))
        (by
          rw [← hat]
          cases u with
          | set i' c v => exact (step_attrs_col h1 _ (by intros; simp) j).2.2
          | del i' c => exact (step_attrs_col h1 _ (by intros; simp) j).2.2
          | attr i' k v =>
            simp only [Upd.target] at hi
            subst hi
            exact attr_view_other h1 i' j k v hv ha)
      rw [hb1] at key
      exact key

/-- Specification of independence: after any history of updates of `i` and `j`, object `j` looks as if only the
updates addressed to `j` had happened. -/
def IndependentOf (h : Heap ρ V) (i j : Nat) : Prop :=
  ∀ us : List (Upd ρ V), (∀ u ∈ us, u.target = i ∨ u.target = j) →
    (∀ c, getCol (run h us) j c = getCol (run h (us.filter (fun u => u.target = j))) j c) ∧
    attrsView (run h us) j = attrsView (run h (us.filter (fun u => u.target = j))) j

theorem independent_of_unaliased (h : Heap ρ V) (i j : Nat) (hv : Valid h) (ha : Unaliased h i j) :
    IndependentOf h i j := by
  intro us hu
  obtain ⟨a, b⟩ := noninterference_aux i j us h h hv ha hu rfl rfl rfl
  refine ⟨fun c => ?_, b⟩
  unfold getCol
  rw [run_base, run_base, a]

theorem get_toOption (o : Obj ρ) (c : String) (n : Nat) (hn : n = o.size) :
    (⟨o.cls, n, fun c => (o.get c).toOption⟩ : Obj ρ).get c = o.get c := by
  subst hn
  rw [Obj.get_over, Obj.get_over]
  simp only
  rw [Obj.get_over]
  cases h1 : o.over c <;> cases h2 : o.cls.hard c <;> cases h3 : o.cls.dflt c <;> simp [Except.toOption]

/-- C17 for `copy()`: the copy shows the same columns and attrs, and afterwards the two catalogs are independent of each
other under every history of column and attrs updates. -/
theorem copy_independent (h : Heap ρ V) (i : Nat) (hv : Valid h) (hi : i < h.nobj) (h' : Heap ρ V) (j : Nat)
    (hc : copy h i = .ok (h', j)) :
    (∀ c, getCol h' j c = getCol h i c ∧ getCol h' i c = getCol h i c) ∧ attrsView h' j = attrsView h i ∧
    attrsView h' i = attrsView h i ∧ IndependentOf h' i j ∧ IndependentOf h' j i := by
  unfold copy at hc
  cases h1 : h.attrs i with
  | none => rw [h1] at hc; cases hc
  | some r =>
    rw [h1] at hc
    simp only [alloc, Except.ok.injEq, Prod.mk.injEq, Nat.add_sub_cancel] at hc
    obtain ⟨rfl, rfl⟩ := hc
    have hr := hv.attrs i r h1
    have hne : i ≠ h.nobj := by omega
    have how : owner h.base i ≤ i := owner_le _ _
    have hown : owner (put h.base h.nobj none) i = owner h.base i := owner_put _ _ _ _ hi
    have hownj : owner (put h.base h.nobj none) h.nobj = h.nobj := by rw [owner]; simp [put]
    have e1 : owner h.base i ≠ h.nobj := by omega
    have hr' : r ≠ h.ndict := by omega
    have hval : Valid (⟨put h.obj h.nobj ⟨(h.obj (owner h.base i)).cls, (h.obj (owner h.base i)).size,
        fun c => ((h.obj (owner h.base i)).get c).toOption⟩, put h.base h.nobj none,
        put h.attrs h.nobj (some h.ndict), put h.dict h.ndict (h.dict r), h.nobj + 1, h.ndict + 1⟩ : Heap ρ V) := by
      constructor
      · intro a b hab
        simp only [put] at hab
        split at hab
        · simp at hab; simp; omega
        · have := hv.attrs a b hab; simp; omega
      · intro a b hab
        simp only [put] at hab
        split at hab
        · cases hab
        · exact hv.base a b hab
    have hun : Unaliased (⟨put h.obj h.nobj ⟨(h.obj (owner h.base i)).cls, (h.obj (owner h.base i)).size,
        fun c => ((h.obj (owner h.base i)).get c).toOption⟩, put h.base h.nobj none,
        put h.attrs h.nobj (some h.ndict), put h.dict h.ndict (h.dict r), h.nobj + 1, h.ndict + 1⟩ : Heap ρ V) i h.nobj := by
      refine ⟨hne, by simp only [hown, hownj]; exact e1, ?_⟩
      intro r' hr1 hr2
      simp only [put, hne, if_false, if_true] at hr1 hr2
      rw [h1] at hr1
      simp at hr1 hr2; omega
    refine ⟨?_, ?_, ?_, independent_of_unaliased _ _ _ hval hun, independent_of_unaliased _ _ _ hval hun.symm⟩
    · intro c
      constructor
      · simp only [getCol, hownj]
        simp only [put, if_true]
        exact get_toOption _ c _ rfl
      · simp only [getCol, hown]
        simp [put, e1]
    · simp [attrsView, put, h1]
    · simp [attrsView, put, h1, hne, hr']

/-- `copy()` raises AttributeError if the attrs of the catalog were never used. -/
theorem copy_fails_without_attrs (h : Heap ρ V) (i : Nat) :
    copy h i = .error .attributeError ↔ h.attrs i = none := by
  unfold copy
  cases h.attrs i <;> simp

/-- C17 for slices, the part that holds: columns of a slice and of the original are independent, and so are the attrs
provided the original's attrs were never used before slicing. Missing: attrs otherwise (next theorem). -/
theorem slice_independent_partial (h : Heap ρ V) (i : Nat) (idx : List Nat) (hv : Valid h) (hi : i < h.nobj)
    (hat : h.attrs i = none) :
    IndependentOf (slice h i idx).1 i (slice h i idx).2 ∧ IndependentOf (slice h i idx).1 (slice h i idx).2 i := by
  have hne : i ≠ h.nobj := by omega
  have how : owner h.base i ≤ i := owner_le _ _
  have hown : owner (put h.base h.nobj none) i = owner h.base i := owner_put _ _ _ _ hi
  have hownj : owner (put h.base h.nobj none) h.nobj = h.nobj := by rw [owner]; simp [put]
  have hval : Valid (slice h i idx).1 := by
    constructor
    · intro a b hab
      simp only [slice, alloc, put] at hab ⊢
      split at hab
      · exact hv.attrs i b hab
      · exact hv.attrs a b hab
    · intro a b hab
      simp only [slice, alloc, put] at hab
      split at hab
      · cases hab
      · exact hv.base a b hab
  have hun : Unaliased (slice h i idx).1 i (slice h i idx).2 := by
    refine ⟨hne, ?_, ?_⟩
    · simp only [slice, alloc, hown, hownj]; omega
    · intro r h1 h2
      simp only [slice, alloc, put, hne, if_false, hat] at h1
      cases h1
  exact ⟨independent_of_unaliased _ _ _ hval hun, independent_of_unaliased _ _ _ hval hun.symm⟩

/-- C17 for slices, columns: whatever the attrs, column updates on the slice never show in the original and vice
versa. -/
theorem slice_columns_independent_partial (h : Heap ρ V) (i : Nat) (idx : List Nat) (hi : i < h.nobj)
    (us : List (Upd ρ V)) (c : String) :
    ((∀ u ∈ us, u.target = (slice h i idx).2) →
      getCol (run (slice h i idx).1 us) i c = getCol h i c) ∧
    ((∀ u ∈ us, u.target = i) →
      getCol (run (slice h i idx).1 us) (slice h i idx).2 c = getCol (slice h i idx).1 (slice h i idx).2 c) := by
  have how : owner h.base i ≤ i := owner_le _ _
  have hown : owner (put h.base h.nobj none) i = owner h.base i := owner_put _ _ _ _ hi
  have hownj : owner (put h.base h.nobj none) h.nobj = h.nobj := by rw [owner]; simp [put]
  have hbase : (slice h i idx).1.base = put h.base h.nobj none := rfl
  have hid : (slice h i idx).2 = h.nobj := rfl
  have frame : ∀ (g : Heap ρ V) (w : Nat) (us : List (Upd ρ V)), (∀ u ∈ us, owner g.base u.target ≠ w) →
      (run g us).obj w = g.obj w := by
    intro g w us hu
    induction us generalizing g with
    | nil => rfl
    | cons u us ih =>
      show (run (step g u) us).obj w = _
      rw [ih (step g u) (fun u' h' => by rw [owner_step]; exact hu u' (by simp [h']))]
      exact obj_step_other g u w (Or.inr (hu u (by simp)))
  constructor
  · intro hu
    unfold getCol
    rw [run_base, hbase, hown, frame]
    · have : owner h.base i ≠ h.nobj := by omega
      simp [slice, alloc, put, this]
    · intro u hu'
      rw [hu u hu', hid, hbase, hownj]; omega
  · intro hu
    unfold getCol
    rw [run_base, hbase, hid, hownj, frame]
    intro u hu'
    rw [hu u hu', hbase, hown]; omega

/-- C17 fails for the attrs of slices: if the original's attrs were ever used, every later attrs update of the slice
shows in the original (and conversely): they are the same dict. -/
theorem slice_attrs_shared (h : Heap ρ V) (i : Nat) (idx : List Nat) (hi : i < h.nobj) (r : Nat)
    (hat : h.attrs i = some r) (k : String) (v : V) :
    attrsView (step (slice h i idx).1 (.attr (slice h i idx).2 k v)) i k = some v ∧
    attrsView (step (slice h i idx).1 (.attr i k v)) (slice h i idx).2 k = some v := by
  have hne : i ≠ h.nobj := by omega
  simp [slice, alloc, step, attrsOf, attrsView, put, hne, hat]

/-- C17 fails for views by design: a column assigned to the view is assigned to the original. -/
theorem view_writes_through (h : Heap ρ V) (i : Nat) (hi : i < h.nobj) (c : String) (l : List ρ)
    (hl : l.length = (h.obj (owner h.base i)).size) :
    getCol (step (view h i).1 (.set (view h i).2 c (.arr l))) i c = .ok l := by
  have hown : owner (put h.base h.nobj (some i)) i = owner h.base i := owner_put _ _ _ _ hi
  have hownj : owner (put h.base h.nobj (some i)) h.nobj = owner h.base i := by
    rw [owner]; simp only [put, if_true]; rw [dif_pos hi]; exact hown
  have how : owner h.base i ≤ i := owner_le _ _
  have e1 : owner h.base i ≠ h.nobj := by omega
  simp only [view, alloc, step, hownj]
  simp only [put, e1, if_false, Obj.set, Value.toCol, hl, if_true, getCol]
  rw [hown]
  simp [Obj.get]

theorem fresh_independent (g : Heap ρ V) (i : Nat) (hv : Valid g) (hi : i < g.nobj) (o : Obj ρ) (d : String → Option V)
    (g' : Heap ρ V)
    (hg : g' = ⟨put g.obj g.nobj o, put g.base g.nobj none, put g.attrs g.nobj (some g.ndict),
      put g.dict g.ndict d, g.nobj + 1, g.ndict + 1⟩) :
    IndependentOf g' i g.nobj ∧ IndependentOf g' g.nobj i := by
  subst hg
  have hne : i ≠ g.nobj := by omega
  have how : owner g.base i ≤ i := owner_le _ _
  have hown : owner (put g.base g.nobj none) i = owner g.base i := owner_put _ _ _ _ hi
  have hownj : owner (put g.base g.nobj none) g.nobj = g.nobj := by rw [owner]; simp [put]
  have hval : Valid (⟨put g.obj g.nobj o, put g.base g.nobj none, put g.attrs g.nobj (some g.ndict),
      put g.dict g.ndict d, g.nobj + 1, g.ndict + 1⟩ : Heap ρ V) := by
    constructor
    · intro a b hab
      simp only [put] at hab
      split at hab
      · simp at hab; simp; omega
      · have := hv.attrs a b hab; simp; omega
    · intro a b hab
      simp only [put] at hab
      split at hab
      · cases hab
      · exact hv.base a b hab
  have hun : Unaliased (⟨put g.obj g.nobj o, put g.base g.nobj none, put g.attrs g.nobj (some g.ndict),
      put g.dict g.ndict d, g.nobj + 1, g.ndict + 1⟩ : Heap ρ V) i g.nobj := by
    refine ⟨hne, by simp only [hown, hownj]; omega, ?_⟩
    intro r' hr1 hr2
    simp only [put, hne, if_false, if_true] at hr1 hr2
    have := hv.attrs i r' hr1
    simp at hr2; omega
  exact ⟨independent_of_unaliased _ _ _ hval hun, independent_of_unaliased _ _ _ hval hun.symm⟩

theorem attrsOf_valid (h : Heap ρ V) (i : Nat) (hv : Valid h) : Valid (attrsOf h i).1 := by
  unfold attrsOf
  cases h1 : h.attrs i with
  | some r => exact hv
  | none =>
    refine ⟨?_, hv.base⟩
    intro a b hab
    simp only [put] at hab ⊢
    split at hab
    · simp at hab; omega
    · have := hv.attrs a b hab; omega

theorem attrsOf_frame (h : Heap ρ V) (i : Nat) :
    (attrsOf h i).1.obj = h.obj ∧ (attrsOf h i).1.base = h.base ∧ (attrsOf h i).1.nobj = h.nobj ∧
    (attrsOf h i).1.dict (attrsOf h i).2 = attrsView h i := by
  unfold attrsOf attrsView
  cases h1 : h.attrs i with
  | some r => simp
  | none => simp [put]

/-- C17 for `cat[[names]]`: exactly the named columns (plus those every plain catalog has), the
same attrs, and independent of the original afterwards. -/
theorem select_independent (plain : Cls ρ) (h : Heap ρ V) (i : Nat) (names : List String) (hv : Valid h)
    (hi : i < h.nobj) (h' : Heap ρ V) (j : Nat) (hc : select plain h i names = .ok (h', j)) :
    (∀ c ∈ names, getCol h' j c = getCol h i c) ∧
    (∀ c, c ∉ names → plain.hard c = none → plain.dflt c = none → getCol h' j c = .error .keyError) ∧
    attrsView h' j = attrsView h i ∧
    IndependentOf h' i j ∧ IndependentOf h' j i := by
  obtain ⟨f1, f2, f3, f4⟩ := attrsOf_frame h i
  have hv' := attrsOf_valid h i hv
  unfold select at hc
  simp only at hc
  split at hc
  · cases hc
  rename_i hnames
  generalize attrsOf h i = p at *
  obtain ⟨g, r⟩ := p
  simp only [alloc, Except.ok.injEq, Prod.mk.injEq, Nat.add_sub_cancel] at hc f1 f2 f3 f4 hv'
  obtain ⟨hc1, hc2⟩ := hc
  subst hc2
  have hind := fresh_independent g i hv' (by omega) _ _ h' hc1.symm
  refine ⟨?_, ?_, ?_, hind.1, hind.2⟩
  rotate_left
  · intro c hcn hp1 hp2
    subst hc1
    have hownj : owner (put g.base g.nobj none) g.nobj = g.nobj := by rw [owner]; simp [put]
    simp only [getCol, hownj]
    simp only [put, if_true]
    rw [Obj.get]
    simp [hcn, hp1, hp2]
  rotate_left
  · intro c hcn
    subst hc1
    have hownj : owner (put g.base g.nobj none) g.nobj = g.nobj := by rw [owner]; simp [put]
    simp only [getCol, hownj]
    simp only [put, if_true]
    have hok : ∃ v, (h.obj (owner h.base i)).get c = .ok v := by
      cases hg : (h.obj (owner h.base i)).get c with
      | ok v => exact ⟨v, rfl⟩
      | error e =>
        exfalso; apply hnames
        simp only [List.any_eq_true]
        exact ⟨c, hcn, by rw [hg]⟩
    obtain ⟨v, hok⟩ := hok
    rw [hok, Obj.get]
    simp [hcn, hok, Except.toOption]
  · subst hc1
    simp [attrsView, put]
    rw [f4]
    rfl

/-- Non-vacuity: a catalog with attrs in use; copying, slicing and viewing it. -/
example : ∃ h : Heap Nat Nat, Valid h ∧ 0 < h.nobj ∧ h.attrs 0 = some 0 ∧ (∃ p, copy h 0 = .ok p) ∧
    (h.obj (owner h.base 0)).size = 2 := by
  refine ⟨⟨fun _ => ⟨⟨fun _ => none, fun _ => none⟩, 2, fun c => if c = "x" then some [7, 8] else none⟩,
    fun _ => none, fun i => if i = 0 then some 0 else none, fun _ _ => none, 1, 1⟩, ⟨?_, ?_⟩, ?_, ?_, ?_, ?_⟩
  · intro i r h; simp at h; simp; omega
  · intro i b h; simp at h
  · decide
  · rfl
  · exact ⟨_, rfl⟩
  · rfl

end NBK.Catalog
