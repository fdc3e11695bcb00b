import Verif.CatObj.StateProps

/-! # `CatalogSource` objects: columns after any program -/
set_option linter.unusedSimpArgs false
namespace NBK.CatObj
open NBK.Slicing (Index)

variable {ρ δ V : Type}

/-- What the class alone provides for a column: hard-coded, or default. -/
def classRead (o : Obj ρ δ) (c : String) : Except Err (Col ρ × Bool) := ({ o with over := [] } : Obj ρ δ).read c

/-- The reading of a column after it was assigned, deleted, or left alone. -/
def after (old cls : Except Err (Col ρ × Bool)) : Option (Option (Col ρ)) → Except Err (Col ρ × Bool)
  | none => old
  | some none => cls
  | some (some x) => .ok (x, false)

theorem next_read (f : String → Option (Option (Col ρ))) (o o' : Obj ρ δ) (h : Next f o o') (c : String) : o'.read c = after (o.read c) (classRead o c) (f c) := by
  obtain ⟨⟨h1, h2, h3, _, _⟩, ho, _⟩ := h
  have hc := ho c
  cases hf : f c with
  | none =>
    rw [hf] at hc
    simp only [Option.getD_none] at hc
    unfold after Obj.read
    rw [hc, h1, h2, h3]
  | some x =>
    rw [hf] at hc
    simp only [Option.getD_some] at hc
    cases x with
    | none =>
      unfold after classRead Obj.read
      rw [hc, h1, h2, h3]
      rfl
    | some x =>
      unfold after Obj.read
      rw [hc]

theorem chain_same {w w' : World ρ δ V} (h : ∀ (k : Nat) (o : Obj ρ δ), w.objs[k]? = some o → ∃ o', w'.objs[k]? = some o' ∧ o'.base = o.base) (i : Nat) (hi : i < w.objs.length) :
    owner w'.objs i = owner w.objs i := by
  apply owner_congr
  intro k hk
  obtain ⟨o', ho', hb⟩ := h k _ (List.getElem?_eq_getElem (Nat.lt_of_le_of_lt hk hi))
  rw [ho', List.getElem?_eq_getElem (Nat.lt_of_le_of_lt hk hi)]
  exact hb

/-- The owner of the memory of an object never changes. -/
theorem owner_step (plain : Cls ρ δ) (w : World ρ δ V) (op : Op ρ δ V) (i : Nat) (hi : i < w.objs.length) : owner (step plain w op).objs i = owner w.objs i := by
  apply chain_same _ i hi
  intro k o ho
  obtain ⟨o', ho', hn⟩ := (step_effect plain w op).2.2 k o ho
  exact ⟨o', ho', hn.1.2.2.2.2⟩

theorem length_step (plain : Cls ρ δ) (w : World ρ δ V) (op : Op ρ δ V) : w.objs.length ≤ (step plain w op).objs.length := by
  by_contra hc
  have hlt : w.objs.length - 1 < w.objs.length := by omega
  obtain ⟨o', ho', _⟩ := (step_effect plain w op).2.2 _ _ (List.getElem?_eq_getElem hlt)
  have := (List.getElem?_eq_some_iff.mp ho').1
  omega

/-- C128: a column of an object changes by an assignment or a deletion through an object that shares its memory, and by nothing else. -/
theorem read_step (plain : Cls ρ δ) (w : World ρ δ V) (op : Op ρ δ V) (i : Nat) (o : Obj ρ δ) (hi : i < w.objs.length) (ho : w.own i = some o) (c : String) :
    (step plain w op).read i c = after (w.read i c) (classRead o c) (wrote w op (owner w.objs i) c) := by
  obtain ⟨o', ho', hn⟩ := (step_effect plain w op).2.2 _ o ho
  unfold World.read World.own
  rw [owner_step plain w op i hi, ho']
  unfold World.own at ho
  rw [ho]
  exact next_read _ o o' hn c

/-- Classes and sizes never change. -/
theorem own_step (plain : Cls ρ δ) (w : World ρ δ V) (op : Op ρ δ V) (i : Nat) (o : Obj ρ δ) (hi : i < w.objs.length) (ho : w.own i = some o) :
    ∃ o', (step plain w op).own i = some o' ∧ Same o o' := by
  obtain ⟨o', ho', hn⟩ := (step_effect plain w op).2.2 _ o ho
  refine ⟨o', ?_, hn.1⟩
  unfold World.own
  rw [owner_step plain w op i hi, ho']

theorem own_run (plain : Cls ρ δ) (i : Nat) : ∀ (ops : List (Op ρ δ V)) (w : World ρ δ V) (o : Obj ρ δ), i < w.objs.length → w.own i = some o →
    i < (run plain w ops).objs.length ∧ owner (run plain w ops).objs i = owner w.objs i ∧ ∃ o', (run plain w ops).own i = some o' ∧ Same o o'
  | [], w, o, hi, ho => ⟨hi, rfl, o, ho, rfl, rfl, rfl, rfl, rfl⟩
  | op :: ops, w, o, hi, ho => by
    obtain ⟨o1, ho1, hs⟩ := own_step plain w op i o hi ho
    obtain ⟨h1, h2, o2, ho2, hs2⟩ := own_run plain i ops (step plain w op) o1 (Nat.lt_of_lt_of_le hi (length_step plain w op)) ho1
    refine ⟨h1, by rw [← owner_step plain w op i hi]; exact h2, o2, ho2, ?_⟩
    obtain ⟨a1, a2, a3, a4, a5⟩ := hs
    obtain ⟨b1, b2, b3, b4, b5⟩ := hs2
    exact ⟨b1.trans a1, b2.trans a2, b3.trans a3, b4.trans a4, b5.trans a5⟩

/-- C128: the size of an object never changes. -/
theorem size_run (plain : Cls ρ δ) (w : World ρ δ V) (ops : List (Op ρ δ V)) (i : Nat) (hi : i < w.objs.length) :
    (run plain w ops).size i = w.size i ∧ (run plain w ops).csize i = w.csize i ∧ (run plain w ops).hardcolumns i = w.hardcolumns i := by
  obtain ⟨o, ho⟩ := own_some w i hi
  obtain ⟨_, _, o', ho', h1, h2, h3, h4, h5⟩ := own_run plain i ops w o hi ho
  unfold World.size World.csize World.hardcolumns
  rw [ho, ho']
  simp [h1, h3, h4]

/-- The last successful assignment or deletion of column `c` in the memory of object `k`. -/
def lastWrite (plain : Cls ρ δ) (k : Nat) (c : String) : World ρ δ V → List (Op ρ δ V) → Option (Option (Col ρ))
  | _, [] => none
  | w, op :: ops => (lastWrite plain k c (step plain w op) ops).or (wrote w op k c)

/-- C128: in any program a column of a catalog is what was assigned last through any object that shares its memory; what the class provides, if it was deleted last; and what it was
otherwise. Making objects, writing to other objects, attributes and refused operations have no effect on it. -/
theorem read_run (plain : Cls ρ δ) (i : Nat) (c : String) : ∀ (ops : List (Op ρ δ V)) (w : World ρ δ V) (o : Obj ρ δ), i < w.objs.length → w.own i = some o →
    (run plain w ops).read i c = after (w.read i c) (classRead o c) (lastWrite plain (owner w.objs i) c w ops)
  | [], w, o, hi, ho => rfl
  | op :: ops, w, o, hi, ho => by
    obtain ⟨o1, ho1, hs⟩ := own_step plain w op i o hi ho
    have ih := read_run plain i c ops (step plain w op) o1 (Nat.lt_of_lt_of_le hi (length_step plain w op)) ho1
    have hc : classRead o1 c = classRead o c := by
      obtain ⟨h1, h2, h3, _, _⟩ := hs
      unfold classRead Obj.read
      dsimp only
      rw [h1, h2, h3]
    show (run plain (step plain w op) ops).read i c = _
    rw [ih, owner_step plain w op i hi, read_step plain w op i o hi ho c, hc]
    have e : lastWrite plain (owner w.objs i) c w (op :: ops) = (lastWrite plain (owner w.objs i) c (step plain w op) ops).or (wrote w op (owner w.objs i) c) := rfl
    rw [e]
    cases lastWrite plain (owner w.objs i) c (step plain w op) ops with
    | none => rfl
    | some x => cases x <;> rfl

/-- C128: as long as a program does not assign or delete column `c` through an object of the family of `i`, the column stays the same dask array. -/
theorem untouched (plain : Cls ρ δ) (i : Nat) (c : String) : ∀ (ops : List (Op ρ δ V)) (w : World ρ δ V), i < w.objs.length →
    (∀ op ∈ ops, ∀ j v, (op = .set j c v ∨ op = .del j c) → ∀ pre post, ops = pre ++ op :: post → owner (run plain w pre).objs j ≠ owner w.objs i) →
    (run plain w ops).read i c = w.read i c := by
  intro ops w hi h
  obtain ⟨o, ho⟩ := own_some w i hi
  rw [read_run plain i c ops w o hi ho]
  have : ∀ (ops : List (Op ρ δ V)) (w' : World ρ δ V),
      (∀ op ∈ ops, ∀ j v, (op = .set j c v ∨ op = .del j c) → ∀ pre post, ops = pre ++ op :: post → owner (run plain w' pre).objs j ≠ owner w.objs i) →
      lastWrite plain (owner w.objs i) c w' ops = none := by
    intro ops
    induction ops with
    | nil => intros; rfl
    | cons op ops ih =>
      intro w' h
      unfold lastWrite
      rw [ih (step plain w' op) fun op' hop j v hj pre post e => h op' (List.mem_cons_of_mem _ hop) j v hj (op :: pre) post (by rw [e]; rfl), Option.none_or]
      cases op with
      | set j c' v =>
        simp only [wrote]
        rw [if_neg]
        rintro ⟨h1, rfl⟩
        exact h _ List.mem_cons_self j v (Or.inl rfl) [] ops rfl h1
      | del j c' =>
        simp only [wrote]
        rw [if_neg]
        rintro ⟨h1, rfl⟩
        exact h _ List.mem_cons_self j (.buf 0) (Or.inr rfl) [] ops rfl h1
      | _ => rfl
  rw [this ops w h]
  rfl

/-- C128: two objects with the same memory always show the same columns, of the same sizes. -/
theorem family (plain : Cls ρ δ) (w : World ρ δ V) (ops : List (Op ρ δ V)) (i j : Nat) (hi : i < w.objs.length) (hj : j < w.objs.length) (h : owner w.objs i = owner w.objs j) :
    (run plain w ops).read i = (run plain w ops).read j ∧ (run plain w ops).columns i = (run plain w ops).columns j ∧ (run plain w ops).size i = (run plain w ops).size j := by
  obtain ⟨o, ho⟩ := own_some w i hi
  obtain ⟨o2, ho2⟩ := own_some w j hj
  obtain ⟨_, e1, _⟩ := own_run plain i ops w o hi ho
  obtain ⟨_, e2, _⟩ := own_run plain j ops w o2 hj ho2
  have e : owner (run plain w ops).objs i = owner (run plain w ops).objs j := by rw [e1, e2, h]
  unfold World.columns World.size World.own
  refine ⟨?_, ?_, ?_⟩
  · funext c
    unfold World.read World.own
    rw [e]
  · rw [e]
  · rw [e]

end NBK.CatObj
