import Verif.SaveObj.PowerProps

/-!
# Programs that save and load catalogs, and concrete cases (C139)
-/
set_option linter.unusedSimpArgs false
namespace NBK.SaveObj
open NBK.Attrs (Codec Dict Val Stored)
variable {V : Type}

/-- What a program does: `cats[i].save(path, ...)`, `BigFileCatalog(path, ...)` on `P` ranks, `cats[i][name] = f(cats[i][old])`. -/
inductive Op (V : Type) where
  | save (i : Nat) (path : String) (a : Args) (order : List (Name × Col V) → List ((Name × Col V) × Chunk))
  | load (P : Nat) (path : String) (a : LoadArgs)
  | assign (i : Nat) (name old : Name) (f : V → V)

/-- A step; what fails leaves no catalog. -/
def step (c : Codec) (zero : V) (D : Defaults V) (s : FS V × List (Cat V)) : Op V → FS V × List (Cat V)
  | .save i path a order => (((s.2[i]?).map fun cat => (SaveObj.save c zero s.1 cat path a order).1).getD s.1, s.2)
  | .load P path a => (s.1, s.2 ++ (SaveObj.load c D P s.1 path a).toOption.toList)
  | .assign i name old f => (s.1, s.2.modify i fun cat =>
      ((cat.cols.lookup old).map fun x => { cat with cols := (name, ⟨.map f x.expr, false, []⟩) :: cat.cols.filter fun p => p.1 ≠ name }).getD cat)

def run (c : Codec) (zero : V) (D : Defaults V) (s : FS V × List (Cat V)) (ops : List (Op V)) : FS V × List (Cat V) := ops.foldl (step c zero D) s

/-- The file that a step writes to. -/
def Op.writes : Op V → Option String
  | .save _ path _ _ => some path
  | _ => none

/-- **What programs keep** (C139): a file changes only by `save` to its path; every column that reads no other file has the rows it had, whatever the program does. -/
theorem kept (c : Codec) (zero : V) (D : Defaults V) (s : FS V × List (Cat V)) (ops : List (Op V)) :
    (∀ path, (∀ o ∈ ops, o.writes ≠ some path) → (run c zero D s ops).1 path = s.1 path) ∧
      ∀ (P : Nat) (e : Expr V), (∀ x ∈ e.reads, ∀ o ∈ ops, o.writes ≠ some x.1) → values (run c zero D s ops).1 P e = values s.1 P e := by
  have h1 : ∀ path, (∀ o ∈ ops, o.writes ≠ some path) → (run c zero D s ops).1 path = s.1 path := by
    intro path
    unfold run
    induction ops generalizing s with
    | nil => intro _; rfl
    | cons o ops ih =>
      intro h
      rw [List.foldl_cons, ih _ fun o' ho' => h o' (List.mem_cons_of_mem _ ho')]
      cases o with
      | load P p a => rfl
      | assign i n old f => rfl
      | save i p a order =>
        have hp : path ≠ p := fun e => h _ List.mem_cons_self (by rw [e]; rfl)
        simp only [step]
        cases s.2[i]? with
        | none => rfl
        | some cat => exact save_path c zero s.1 cat p path hp a order
  refine ⟨h1, fun P e h => values_frame _ _ e P fun x hx => ?_⟩
  unfold FS.block
  rw [h1 x.1 fun o ho => h x hx o ho]

/-- C139: a program that never saves to a path which it has loaded from or saved to before sees every catalog unchanged, in memory or loaded: the rows of the columns it does not assign
stay the same. -/
theorem catalogs_kept (c : Codec) (zero : V) (D : Defaults V) (s : FS V × List (Cat V)) (ops : List (Op V)) (i : Nat) (cat : Cat V) (hi : s.2[i]? = some cat) (n : Name) (x : Col V)
    (hn : cat.cols.lookup n = some x) (hr : ∀ y ∈ x.expr.reads, ∀ o ∈ ops, o.writes ≠ some y.1) (ha : ∀ o ∈ ops, ∀ old f, o ≠ .assign i n old f) :
    ∃ cat', (run c zero D s ops).2[i]? = some cat' ∧ rows (run c zero D s ops).1 cat' n = rows s.1 cat n := by
  have hv := (kept c zero D s ops).2 cat.sizes.length x.expr hr
  have hrow : rows s.1 cat n = values s.1 cat.sizes.length x.expr := by unfold rows; rw [hn]; rfl
  have h2 : ∃ cat', (run c zero D s ops).2[i]? = some cat' ∧ cat'.cols.lookup n = some x ∧ cat'.sizes = cat.sizes := by
    unfold run
    clear hv hrow hr
    induction ops generalizing s cat with
    | nil => exact ⟨cat, hi, hn, rfl⟩
    | cons o ops ih =>
      rw [List.foldl_cons]
      have hstep : ∃ cat1, (step c zero D s o).2[i]? = some cat1 ∧ cat1.cols.lookup n = some x ∧ cat1.sizes = cat.sizes := by
        cases o with
        | save j p a order => exact ⟨cat, hi, hn, rfl⟩
        | load P p a =>
          refine ⟨cat, ?_, hn, rfl⟩
          simp only [step]
          rw [List.getElem?_append_left (List.getElem?_eq_some_iff.mp hi).1]
          exact hi
        | assign j m old f =>
          simp only [step]
          rw [List.getElem?_modify, hi]
          by_cases hj : j = i
          · subst hj
            have hne : n ≠ m := fun e => ha (.assign j m old f) List.mem_cons_self old f (by rw [e])
            refine ⟨_, by simp; rfl, ?_⟩
            cases ho : cat.cols.lookup old with
            | none => exact ⟨hn, rfl⟩
            | some y =>
              simp only [Option.map_some, Option.getD_some]
              refine ⟨?_, trivial⟩
              rw [List.lookup_cons]
              have hb : (n == m) = false := by simpa using hne
              simp only [hb]
              have : ∀ l : List (Name × Col V), l.lookup n = some x → (l.filter fun p => p.1 ≠ m).lookup n = some x := by
                intro l
                induction l with
                | nil => intro h; cases h
                | cons p l ih =>
                  intro h
                  rw [List.lookup_cons] at h
                  by_cases e : n = p.1
                  · have hpm : p.1 ≠ m := by rw [← e]; exact hne
                    rw [List.filter_cons, if_pos (by simpa using hpm), List.lookup_cons]
                    simp only [e, BEq.rfl] at h ⊢
                    exact h
                  · have hb : (n == p.1) = false := by simpa using e
                    rw [hb] at h
                    have := ih h
                    by_cases hpm : p.1 = m
                    · rw [List.filter_cons, if_neg (by simpa using hpm)]
                      exact this
                    · rw [List.filter_cons, if_pos (by simpa using hpm), List.lookup_cons, hb]
                      exact this
              simpa using this _ hn
          · refine ⟨cat, ?_, hn, rfl⟩
            simp [hj]
      obtain ⟨cat1, g1, g2, g3⟩ := hstep
      obtain ⟨cat', k1, k2, k3⟩ := ih _ cat1 g1 g2 fun o' ho' => ha o' (List.mem_cons_of_mem _ ho')
      exact ⟨cat', k1, k2, k3.trans g3⟩
  obtain ⟨cat', k1, k2, k3⟩ := h2
  refine ⟨cat', k1, ?_⟩
  rw [hrow, ← hv]
  unfold rows
  rw [k2, k3]
  rfl

end NBK.SaveObj
