import Verif.SaveObj.Props
import Mathlib.Tactic.Ring

/-!
# Loading a catalog (C139)
-/
set_option linter.unusedSimpArgs false
namespace NBK.SaveObj
open NBK.Attrs (Codec Dict Val Stored)
variable {V : Type}

/-! ## Files have one block of a name -/

def keysOf {β : Type} (f : List (Name × β)) : List Name := f.map Prod.fst

/-- Every file has at most one block of a name. -/
def FS.Ok (fs : FS V) : Prop := ∀ path f, fs path = some f → (keysOf f).Nodup

theorem lookup_mem {β : Type} (f : List (Name × β)) (hn : (keysOf f).Nodup) (n : Name) (b : β) : f.lookup n = some b ↔ (n, b) ∈ f := by
  induction f with
  | nil => simp
  | cons p f ih =>
    obtain ⟨x, y⟩ := p
    have h := List.nodup_cons.mp (show (x :: keysOf f).Nodup from hn)
    by_cases hx : n = x
    · subst hx
      rw [List.lookup_cons, BEq.rfl]
      simp only [Option.some.injEq, List.mem_cons, Prod.mk.injEq, true_and]
      constructor
      · rintro rfl; exact Or.inl rfl
      · rintro (rfl | hm)
        · rfl
        · exact absurd (List.mem_map.mpr ⟨_, hm, rfl⟩) h.1
    · have : (n == x) = false := by simpa using hx
      rw [List.lookup_cons, this]
      simp only [List.mem_cons, Prod.mk.injEq, hx, false_and, false_or]
      exact ih h.2

theorem lookup_none {β : Type} (f : List (Name × β)) (n : Name) : f.lookup n = none ↔ n ∉ keysOf f := by
  induction f with
  | nil => simp [keysOf]
  | cons p f ih =>
    obtain ⟨x, y⟩ := p
    by_cases hx : n = x
    · subst hx
      rw [List.lookup_cons, BEq.rfl]
      simp [keysOf]
    · have : (n == x) = false := by simpa using hx
      rw [List.lookup_cons, this]
      simp only [keysOf, List.map_cons, List.mem_cons, hx, false_or]
      exact ih

theorem keys_setBlock (f : File V) (n : Name) (b : Block V) : keysOf (setBlock f n b) = if n ∈ keysOf f then keysOf f else keysOf f ++ [n] := by
  unfold setBlock
  by_cases h : (f.lookup n).isSome
  · rw [if_pos h]
    have hm : n ∈ keysOf f := by
      by_contra hc
      rw [(lookup_none f n).mpr hc] at h
      cases h
    rw [if_pos hm]
    unfold keysOf
    rw [List.map_map]
    apply List.map_congr_left
    intro p _
    by_cases hp : p.1 = n
    · simp [hp]
    · simp [hp]
  · rw [if_neg h]
    have hm : n ∉ keysOf f := (lookup_none f n).mp (Option.not_isSome_iff_eq_none.mp h)
    rw [if_neg hm]
    simp [keysOf]

theorem ok_put (fs : FS V) (h : fs.Ok) (path : String) (n : Name) (b : Block V) : (fs.put path n b).Ok := by
  intro path' f hf
  unfold FS.put at hf
  by_cases hp : path' = path
  · subst hp
    rw [Function.update_self] at hf
    injection hf with hf
    subst hf
    have hg : (keysOf ((fs path').getD [])).Nodup := by
      cases hq : fs path' with
      | none => simp [keysOf]
      | some g => exact h path' g hq
    rw [keys_setBlock]
    by_cases hm : n ∈ keysOf ((fs path').getD [])
    · rw [if_pos hm]; exact hg
    · rw [if_neg hm, List.nodup_append]
      refine ⟨hg, by simp, ?_⟩
      intro x hx y hy
      simp only [List.mem_singleton] at hy
      subst hy
      rintro rfl
      exact hm hx
  · rw [Function.update_of_ne hp] at hf
    exact h path' f hf

theorem ok_createAll (P : Nat) (path : String) (fs : FS V) (h : fs.Ok) (l : List (Name × Col V)) : (createAll P path fs l).Ok := by
  induction l generalizing fs with
  | nil => exact h
  | cons p l ih =>
    unfold createAll at ih ⊢
    rw [List.foldl_cons]
    exact ih _ (ok_put fs h _ _ _)

theorem ok_writeAll (zero : V) (path : String) (fs : FS V) (h : fs.Ok) (o : List ((Name × Col V) × Chunk)) : (writeAll zero path fs o).1.Ok := by
  induction o generalizing fs with
  | nil => exact h
  | cons x o ih =>
    obtain ⟨p, k⟩ := x
    unfold writeAll
    cases hw : writeChunk zero path p.1 p.2.expr fs k with
    | none => exact h
    | some fs' =>
      refine ih fs' ?_
      unfold writeChunk at hw
      rw [Option.bind_eq_some_iff] at hw
      obtain ⟨vs, _, hw⟩ := hw
      rw [Option.map_eq_some_iff] at hw
      obtain ⟨b, _, rfl⟩ := hw
      exact ok_put fs h _ _ _

theorem ok_begin (c : Codec) (P : Nat) (fs : FS V) (h : fs.Ok) (cat : Cat V) (path : String) (a : Args) : (begin c P fs cat path a).1.Ok := by
  unfold begin
  cases chosen cat a with
  | error e => exact h
  | ok l =>
    dsimp only
    have h0 : (if (fs path).isSome then fs else Function.update fs path (some []) : FS V).Ok := by
      by_cases hs : (fs path).isSome
      · rw [if_pos hs]; exact h
      · rw [if_neg hs]
        intro path' f hf
        by_cases hp : path' = path
        · subst hp
          rw [Function.update_self] at hf
          injection hf with hf
          subst hf
          simp [keysOf]
        · rw [Function.update_of_ne hp] at hf
          exact h path' f hf
    cases a.header with
    | none => exact ok_createAll P path _ h0 l
    | some n => exact ok_put _ (ok_createAll P path _ h0 l) _ _ _

/-- `save` keeps files sound, also when it fails. -/
theorem save_ok (c : Codec) (zero : V) (fs : FS V) (h : fs.Ok) (cat : Cat V) (path : String) (a : Args) (order : List (Name × Col V) → List ((Name × Col V) × Chunk)) :
    (save c zero fs cat path a order).1.Ok := by
  have hb := ok_begin c cat.sizes.length fs h cat path a
  unfold save
  dsimp only
  cases hr : (begin c cat.sizes.length fs cat path a).2 with
  | error e => exact hb
  | ok l => exact ok_writeAll zero path _ hb (order l)

/-! ## Loading -/

theorem below_iff (ds m n : Name) : below ds m = some n ↔ m = ds ++ n := by
  induction ds generalizing m with
  | nil => simp [below, eq_comm]
  | cons d ds ih =>
    cases m with
    | nil => simp [below]
    | cons x m =>
      simp only [below, List.cons_append, List.cons.injEq]
      by_cases h : d = x
      · rw [if_pos h, ih]; simp [h]
      · rw [if_neg h]
        constructor
        · intro e; cases e
        · rintro ⟨rfl, _⟩; exact absurd rfl h

/-- The names that `exclude` has: those given, or the headers. -/
def excluded (fs : FS V) (path : String) (a : LoadArgs) : List Name := a.exclude.getD (headers ((fs path).getD []) a)

/-- The block that a column of the loaded catalog shows. -/
def Shows (fs : FS V) (path : String) (a : LoadArgs) (n : Name) (b : Block V) : Prop := fs.block path (a.dataset ++ n) = some b ∧ n ∉ excluded fs path a

theorem columnsOf_mem (fs : FS V) (hok : fs.Ok) (path : String) (f : File V) (hf : fs path = some f) (a : LoadArgs) (n : Name) (b : Block V) :
    (n, b) ∈ columnsOf f a ↔ Shows fs path a n b := by
  unfold columnsOf Shows excluded FS.block
  rw [hf]
  simp only [List.mem_filter, List.mem_filterMap, Option.map_eq_some_iff, Prod.mk.injEq, Option.getD_some, Option.bind_some, decide_eq_true_eq]
  rw [lookup_mem f (hok path f hf)]
  constructor
  · rintro ⟨⟨⟨m, b'⟩, h1, n', h2, rfl, rfl⟩, h3⟩
    rw [below_iff] at h2
    simp only at h2
    subst h2
    exact ⟨h1, h3⟩
  · rintro ⟨h1, h3⟩
    exact ⟨⟨_, h1, n, (below_iff _ _ _).mpr rfl, rfl, rfl⟩, h3⟩

theorem columnsOf_keys (f : File V) (hok : (keysOf f).Nodup) (a : LoadArgs) : (keysOf (columnsOf f a)).Nodup := by
  have h1 : (keysOf (f.filterMap fun p => (below a.dataset p.1).map fun n => (n, p.2))).Nodup := by
    induction f with
    | nil => simp [keysOf]
    | cons p f ih =>
      have h := List.nodup_cons.mp (show (p.1 :: keysOf f).Nodup from hok)
      have ih := ih h.2
      rw [List.filterMap_cons]
      cases hb : below a.dataset p.1 with
      | none => exact ih
      | some n =>
        simp only [Option.map_some]
        show (n :: keysOf _).Nodup
        rw [List.nodup_cons]
        refine ⟨fun hm => ?_, ih⟩
        obtain ⟨q, hq, hq1⟩ := List.mem_map.mp hm
        obtain ⟨p', hp', hp2⟩ := List.mem_filterMap.mp hq
        obtain ⟨n', hn', rfl⟩ := Option.map_eq_some_iff.mp hp2
        simp only at hq1
        subst hq1
        rw [below_iff] at hb hn'
        exact h.1 (List.mem_map.mpr ⟨p', hp', by rw [hn', hb]⟩)
  unfold columnsOf
  exact (List.Sublist.map Prod.fst List.filter_sublist).nodup h1

theorem first_mono (n P r : Nat) : first n P r ≤ first n P (r + 1) := by
  unfold first
  exact Nat.div_le_div_right (Nat.mul_le_mul_right n (by omega))

/-- The rows of a block as a column of `P` ranks. -/
def diskExpr (path : String) (m : Name) (N P : Nat) : Expr V := .disk path m ((List.range P).map (first N P)) ((List.range P).map (number N P))

theorem disk_len (path : String) (m : Name) (N P r : Nat) (h : r < P) : (diskExpr path m N P : Expr V).len r = number N P r := by
  simp [diskExpr, Expr.len, h]

theorem disk_offset (path : String) (m : Name) (N P r : Nat) (h : r ≤ P) : offset (diskExpr path m N P : Expr V) r = first N P r := by
  induction r with
  | zero => simp [offset, first]
  | succ r ih =>
    rw [offset_succ, ih (by omega), disk_len _ _ _ _ _ (by omega)]
    have := first_mono N P r
    unfold number
    omega

theorem disk_total (path : String) (m : Name) (N P : Nat) (hP : 0 < P) : total P (diskExpr path m N P : Expr V) = N := by
  rw [total_eq, disk_offset _ _ _ _ _ (Nat.le_refl _)]
  unfold first
  exact Nat.mul_div_cancel_left N hP

/-- The rows of a block that is complete. -/
theorem disk_values (fs : FS V) (path : String) (m : Name) (P : Nat) (hP : 0 < P) (b : Block V) (hb : fs.block path m = some b) (hd : b.data.length = b.size) :
    values fs P (diskExpr path m b.size P) = some b.data := by
  refine values_of _ _ _ _ (by rw [disk_total _ _ _ _ hP, hd]) fun r i hr hi => ?_
  have hlt := row_lt P _ r i hr hi
  rw [disk_total _ _ _ _ hP, disk_offset _ _ _ _ _ (by omega)] at hlt
  rw [disk_offset _ _ _ _ _ (by omega)]
  rw [disk_len _ _ _ _ _ hr] at hi
  unfold diskExpr
  simp only [Expr.row, hb, Option.bind_some]
  have e1 : ((List.range P).map (number b.size P)).getD r 0 = number b.size P r := by simp [hr]
  have e2 : ((List.range P).map (first b.size P)).getD r 0 = first b.size P r := by simp [hr]
  rw [e1, e2, if_pos hi, if_pos hlt]

/-- The columns of the file in a catalog. -/
def fileCols (path : String) (a : LoadArgs) (P N : Nat) (l : List (Name × Block V)) : List (Name × Col V) := l.map fun q => (q.1, ⟨diskExpr path (a.dataset ++ q.1) N P, false, []⟩)

theorem fileCols_lookup (path : String) (a : LoadArgs) (P N : Nat) (l : List (Name × Block V)) (n : Name) :
    (fileCols path a P N l).lookup n = (l.lookup n).map fun _ => ⟨diskExpr path (a.dataset ++ n) N P, false, []⟩ := by
  induction l with
  | nil => rfl
  | cons p l ih =>
    obtain ⟨x, y⟩ := p
    show List.lookup n ((x, _) :: fileCols path a P N l) = _
    by_cases h : n = x
    · subst h
      simp
    · have : (n == x) = false := by simpa using h
      rw [List.lookup_cons, List.lookup_cons, this]
      exact ih

/-- The sizes of the ranks. -/
def sizesOf (N P : Nat) : List Nat := (List.range P).map (number N P)

/-- **Loading** (C139): a file whose columns have one size is shown as it is, on any number of ranks. -/
theorem load_spec (c : Codec) (D : Defaults V) (P : Nat) (fs : FS V) (hok : fs.Ok) (path : String) (f : File V) (hf : fs path = some f) (a : LoadArgs) (N : Nat)
    (hs : ∀ n b, Shows fs path a n b → b.size = N) (hex : ∃ n b, Shows fs path a n b) (d : Dict Val) (hd : readAttrs c f (headers f a) = .ok d) :
    ∃ l, load c D P fs path a = .ok ⟨sizesOf N P, withDefaults D (sizesOf N P) (fileCols path a P N l), Attrs.update (Attrs.update [] d) a.attrs⟩ ∧
      (keysOf l).Nodup ∧ ∀ n b, (n, b) ∈ l ↔ Shows fs path a n b := by
  have hmem := columnsOf_mem fs hok path f hf a
  have hkeys := columnsOf_keys f (hok path f hf) a
  unfold load
  rw [hf]
  dsimp only
  cases hc : columnsOf f a with
  | nil =>
    obtain ⟨n, b, h⟩ := hex
    rw [← hmem, hc] at h
    cases h
  | cons p l =>
    rw [hc] at hmem hkeys
    have hp : p.2.size = N := hs p.1 p.2 ((hmem _ _).mp List.mem_cons_self)
    dsimp only
    rw [if_neg, hd]
    · refine ⟨p :: l, ?_, hkeys, hmem⟩
      rw [hp]
      rfl
    · rw [Bool.not_eq_true, List.any_eq_false]
      intro q hq
      have := hs q.1 q.2 ((hmem _ _).mp (List.mem_cons_of_mem _ hq))
      simp [this, hp]

/-- C139: columns of different sizes make the file unreadable. -/
theorem load_inconsistent (c : Codec) (D : Defaults V) (P : Nat) (fs : FS V) (hok : fs.Ok) (path : String) (f : File V) (hf : fs path = some f) (a : LoadArgs)
    (n m : Name) (b b' : Block V) (h1 : Shows fs path a n b) (h2 : Shows fs path a m b') (hne : b.size ≠ b'.size) : load c D P fs path a = .error .inconsistent := by
  have hmem := columnsOf_mem fs hok path f hf a
  unfold load
  rw [hf]
  dsimp only
  cases hc : columnsOf f a with
  | nil => rw [← hmem, hc] at h1; cases h1
  | cons p l =>
    dsimp only
    rw [← hmem, hc] at h1 h2
    rw [if_pos]
    rw [List.any_eq_true]
    by_cases e : b.size = p.2.size
    · rcases List.mem_cons.mp h2 with h2 | h2
      · exact absurd (by rw [e, ← h2]) hne
      · exact ⟨_, h2, by simpa using fun x => hne (e.trans x.symm)⟩
    · rcases List.mem_cons.mp h1 with h1 | h1
      · exact absurd (by rw [← h1]) e
      · exact ⟨_, h1, by simpa using e⟩

theorem withDefaults_left (D : Defaults V) (sizes : List Nat) (cols : List (Name × Col V)) (n : Name) (x : Col V) (h : cols.lookup n = some x) :
    (withDefaults D sizes cols).lookup n = some x := by
  unfold withDefaults
  rw [List.lookup_append, h]
  rfl

theorem sizesOf_length (N P : Nat) : (sizesOf N P).length = P := by simp [sizesOf]

/-- C139: the rows of a column that is loaded are those of the file. -/
theorem loaded_rows (c : Codec) (D : Defaults V) (P : Nat) (hP : 0 < P) (fs : FS V) (hok : fs.Ok) (path : String) (f : File V) (hf : fs path = some f) (a : LoadArgs) (N : Nat)
    (hs : ∀ n b, Shows fs path a n b → b.size = N) (hex : ∃ n b, Shows fs path a n b) (d : Dict Val) (hd : readAttrs c f (headers f a) = .ok d) (cat : Cat V)
    (h : load c D P fs path a = .ok cat) (n : Name) (b : Block V) (hn : Shows fs path a n b) (hc : b.data.length = b.size) : rows fs cat n = some b.data := by
  obtain ⟨l, h1, h2, h3⟩ := load_spec c D P fs hok path f hf a N hs hex d hd
  rw [h1] at h
  injection h with h
  subst h
  unfold rows
  have hl : (fileCols path a P N l).lookup n = some ⟨diskExpr path (a.dataset ++ n) N P, false, []⟩ := by
    rw [fileCols_lookup, (lookup_mem l h2 n b).mpr ((h3 n b).mpr hn)]
    rfl
  rw [withDefaults_left _ _ _ _ _ hl]
  simp only [Option.bind_some, sizesOf_length]
  rw [← hs n b hn]
  exact disk_values fs path _ P hP b hn.1 hc

end NBK.SaveObj
