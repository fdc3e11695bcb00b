import Verif.StatObj.RunProps
set_option linter.unusedSimpArgs false
/-!
# C123: whose memory the data and the mask of an object are
-/
namespace NBK.StatObj
open NBK.PySlice
variable {V : Type} [Num V]

/-- No two objects have memory of data or mask in common. -/
def Own (w : World V) : Prop := ∀ (i j : Nat) (st st' : Stat), i ≠ j → w.stats[i]? = some st → w.stats[j]? = some st' →
  st.data.buf ≠ st'.data.buf ∧ st.mask.buf ≠ st'.mask.buf

/-- Indexing that gives a view: by names, or by slices only. -/
def Op.isView : Op V → Bool
  | .getNames .. => true
  | .getItem _ keys => !(keys.any fun k => k.isInt || k.isLst)
  | _ => false

omit [Num V] in
theorem own_add (w : World V) (p : World V × Stat) (h : Good w) (ho : Own w) (hs : p.1.stats = w.stats) (hd : w.cells.length ≤ p.2.data.buf)
    (hm : w.bits.length ≤ p.2.mask.buf) : Own { p.1 with stats := p.1.stats ++ [p.2] } := by
  have key : ∀ (i : Nat) (st : Stat), w.stats[i]? = some st → st.data.buf < w.cells.length ∧ st.mask.buf < w.bits.length := fun i st hi =>
    let hw := h.2 st (List.mem_of_getElem? hi)
    ⟨hw.data.buf, hw.mask.1⟩
  intro i j st st' hij hi hj
  dsimp only at hi hj
  rw [hs] at hi hj
  rw [List.getElem?_append] at hi hj
  by_cases h1 : i < w.stats.length
  · rw [if_pos h1] at hi
    by_cases h2 : j < w.stats.length
    · rw [if_pos h2] at hj
      exact ho i j st st' hij hi hj
    · rw [if_neg h2] at hj
      have : st' = p.2 := by
        rw [List.getElem?_singleton] at hj
        split at hj
        · injection hj with hj; exact hj.symm
        · cases hj
      subst this
      have := key i st hi
      constructor <;> omega
  · rw [if_neg h1] at hi
    have e1 : st = p.2 ∧ i = w.stats.length := by
      rw [List.getElem?_singleton] at hi
      split at hi
      · injection hi with hi; exact ⟨hi.symm, by omega⟩
      · cases hi
    by_cases h2 : j < w.stats.length
    · rw [if_pos h2] at hj
      have := key j st' hj
      rw [e1.1]
      constructor <;> omega
    · rw [if_neg h2] at hj
      rw [List.getElem?_singleton] at hj
      split at hj
      · exact absurd (by omega) hij
      · cases hj

omit [Num V] in
theorem own_set (w : World V) (p : World V × Stat) (i : Nat) (st0 : Stat) (h : Good w) (ho : Own w) (hs : p.1.stats = w.stats) (h0 : w.stats[i]? = some st0)
    (hp : (w.cells.length ≤ p.2.data.buf ∧ w.bits.length ≤ p.2.mask.buf) ∨ (p.2.data.buf = st0.data.buf ∧ p.2.mask.buf = st0.mask.buf)) :
    Own { p.1 with stats := p.1.stats.set i p.2 } := by
  have key : ∀ (i : Nat) (st : Stat), w.stats[i]? = some st → st.data.buf < w.cells.length ∧ st.mask.buf < w.bits.length := fun i st hi =>
    let hw := h.2 st (List.mem_of_getElem? hi)
    ⟨hw.data.buf, hw.mask.1⟩
  have hlt := (List.getElem?_eq_some_iff.mp h0).1
  have main : ∀ (j : Nat) (st : Stat), j ≠ i → w.stats[j]? = some st → p.2.data.buf ≠ st.data.buf ∧ p.2.mask.buf ≠ st.mask.buf := by
    intro j st hj hx
    rcases hp with hp | hp
    · have := key j st hx
      constructor <;> omega
    · have := ho i j st0 st (Ne.symm hj) h0 hx
      rw [hp.1, hp.2]
      exact this
  intro a b st st' hab ha hb
  dsimp only at ha hb
  rw [hs] at ha hb
  by_cases h1 : a = i
  · subst h1
    rw [List.getElem?_set_self hlt] at ha
    rw [List.getElem?_set_ne hab] at hb
    injection ha with ha
    subst ha
    exact main b st' (Ne.symm hab) hb
  · rw [List.getElem?_set_ne (Ne.symm h1)] at ha
    by_cases h2 : b = i
    · subst h2
      rw [List.getElem?_set_self hlt] at hb
      injection hb with hb
      subst hb
      have := main a st h1 ha
      exact ⟨this.1.symm, this.2.symm⟩
    · rw [List.getElem?_set_ne (Ne.symm h2)] at hb
      exact ho a b st st' hab ha hb

omit [Num V] in
theorem own_stats (w w' : World V) (ho : Own w) (hs : w'.stats = w.stats) : Own w' := fun i j st st' hij hi hj =>
  ho i j st st' hij (by rw [← hs]; exact hi) (by rw [← hs]; exact hj)

theorem step_own (w w' : World V) (o : Op V) (h : Good w) (ho : Own w) (hv : o.isView = false) (hs : step w o = .ok w') : Own w' := by
  have wf : ∀ i st, w.stats[i]? = some st → Wf w st := fun i st hi => h.2 st (List.mem_of_getElem? hi)
  cases o with
  | array l => injection hs with hs; subst hs; exact own_stats w _ ho rfl
  | records l => injection hs with hs; subst hs; exact own_stats w _ ho rfl
  | list l => injection hs with hs; subst hs; exact own_stats w _ ho rfl
  | box v => injection hs with hs; subst hs; exact own_stats w _ ho rfl
  | init dims edges data dshape fsum attrs =>
    unfold step at hs
    dsimp only at hs
    split at hs
    · rename_i hk
      obtain ⟨k1, k2, k3, k4⟩ := known_spec _ _ _ _ _ hk
      obtain ⟨p, hp, rfl⟩ := add_ok _ _ hs
      obtain ⟨m, a, b, _⟩ := init_made w p.1 p.2 _ _ _ _ _ _ _ k1 k2 k3 k4 hp
      exact own_add w p h ho m.stats (le_of_eq a.symm) (le_of_eq b.symm)
    · cases hs
  | fromState i =>
    obtain ⟨st, hi, hs⟩ := withStat_ok _ _ _ _ hs
    obtain ⟨p, hp, rfl⟩ := add_ok _ _ hs
    obtain ⟨m, a, b, _⟩ := fromState_made w p.1 st p.2 (wf i st hi) h.1 hp
    exact own_add w p h ho m.stats (le_of_eq a.symm) (le_of_eq b.symm)
  | copy i =>
    obtain ⟨st, hi, hs⟩ := withStat_ok _ _ _ _ hs
    obtain ⟨p, hp, rfl⟩ := add_ok _ _ hs
    injection hp with hp
    subst hp
    exact own_add w _ h ho rfl (le_refl _) (le_refl _)
  | squeeze i dim =>
    obtain ⟨st, hi, hs⟩ := withStat_ok _ _ _ _ hs
    obtain ⟨p, hp, rfl⟩ := add_ok _ _ hs
    obtain ⟨m, _, a, b, _⟩ := squeeze_made w p.1 st p.2 dim (wf i st hi) hp
    exact own_add w p h ho m.stats (by rw [a]; exact le_refl _) (by rw [b]; exact le_refl _)
  | take i ind =>
    obtain ⟨st, hi, hs⟩ := withStat_ok _ _ _ _ hs
    obtain ⟨p, hp, rfl⟩ := add_ok _ _ hs
    obtain ⟨m, a, b, _⟩ := take_made w p.1 st p.2 ind (wf i st hi) hp
    exact own_add w p h ho m.stats (le_of_eq a.symm) (le_of_eq b.symm)
  | getNames i names => cases hv
  | getItem i keys =>
    obtain ⟨st, hi, hs⟩ := withStat_ok _ _ _ _ hs
    obtain ⟨p, hp, rfl⟩ := add_ok _ _ hs
    have m := getItem_made w p.1 st p.2 keys (wf i st hi) hp
    obtain ⟨a, b⟩ := getItem_fresh w p.1 st p.2 keys (wf i st hi) hp (by simpa [Op.isView] using hv)
    exact own_add w p h ho m.stats a b
  | reindex i dim e rows =>
    obtain ⟨st, hi, hs⟩ := withStat_ok _ _ _ _ hs
    obtain ⟨p, hp, rfl⟩ := add_ok _ _ hs
    obtain ⟨m, a, b, _⟩ := reindex_made w p.1 st p.2 dim e rows (wf i st hi) hp
    exact own_add w p h ho m.stats (le_of_eq a.symm) (le_of_eq b.symm)
  | setItem i key vals =>
    obtain ⟨st, hi, hs⟩ := withStat_ok _ _ _ _ hs
    obtain ⟨p, hp, rfl⟩ := update_ok _ _ _ hs
    obtain ⟨m, a, b, _⟩ := setItem_made w p.1 st p.2 key vals (wf i st hi) hp
    exact own_set w p i st h ho m.stats hi (Or.inl ⟨le_of_eq a.symm, le_of_eq b.symm⟩)
  | rename i old new =>
    obtain ⟨st, hi, hs⟩ := withStat_ok _ _ _ _ hs
    obtain ⟨p, hp, rfl⟩ := update_ok _ _ _ hs
    obtain ⟨s, hr, rfl⟩ := map_ok _ _ _ hp
    obtain ⟨_, a, b⟩ := rename_wf w st s old new (wf i st hi) hr
    exact own_set w (w, s) i st h ho rfl hi (Or.inr ⟨a, congrArg Arr.buf b⟩)
  | setAttr i k v =>
    obtain ⟨st, hi, hs⟩ := withStat_ok _ _ _ _ hs
    obtain ⟨p, hp, rfl⟩ := update_ok _ _ _ hs
    injection hp with hp
    subst hp
    exact own_set w _ i st h ho rfl hi (Or.inr ⟨rfl, rfl⟩)
  | writeVar i name p v =>
    obtain ⟨st, hi, hs⟩ := withStat_ok _ _ _ _ hs
    obtain ⟨m, hm, rfl⟩ := map_ok _ _ _ hs
    exact own_stats w _ ho rfl
  | writeMask i p b =>
    obtain ⟨st, hi, hs⟩ := withStat_ok _ _ _ _ hs
    obtain ⟨m, hm, rfl⟩ := map_ok _ _ _ hs
    exact own_stats w _ ho rfl
  | writeEdge i dim p v =>
    obtain ⟨st, hi, hs⟩ := withStat_ok _ _ _ _ hs
    cases hg : get dim st.edges with
    | none => rw [hg] at hs; cases hs
    | some a =>
      rw [hg] at hs
      obtain ⟨m, hm, rfl⟩ := map_ok _ _ _ hs
      exact own_stats w _ ho rfl
  | writeCoord i dim p v =>
    obtain ⟨st, hi, hs⟩ := withStat_ok _ _ _ _ hs
    cases hg : get dim st.coords with
    | none => rw [hg] at hs; cases hs
    | some a =>
      rw [hg] at hs
      obtain ⟨m, hm, rfl⟩ := map_ok _ _ _ hs
      exact own_stats w _ ho rfl
  | mutAttr i k v =>
    obtain ⟨st, hi, hs⟩ := withStat_ok _ _ _ _ hs
    cases hg : get k st.attrs with
    | none => rw [hg] at hs; cases hs
    | some b =>
      rw [hg] at hs
      injection hs with hs
      subst hs
      exact own_stats w _ ho rfl
  | appendSum i name =>
    obtain ⟨st, hi, hs⟩ := withStat_ok _ _ _ _ hs
    injection hs with hs
    subst hs
    exact own_stats w _ ho rfl

theorem run_own (ops : List (Op V)) (w : World V) (h : Good w) (ho : Own w) (hv : ∀ o ∈ ops, o.isView = false) : Own (run w ops) := by
  induction ops generalizing w with
  | nil => exact ho
  | cons o ops ih =>
    unfold run
    cases hs : step w o with
    | ok w' => exact ih w' (step_good w w' o h hs) (step_own w w' o h ho (hv o (by simp)) hs) (fun x hx => hv x (by simp [hx]))
    | error e => exact ih w h ho (fun x hx => hv x (by simp [hx]))

/-! ## Writing -/

omit [Num V] in
theorem getD_modify_ne {α : Type} (mem : List (List α)) (b k : Nat) (f : List α → List α) (h : b ≠ k) : (mem.modify b f).getD k [] = mem.getD k [] := by
  rw [List.getD_eq_getElem?_getD, List.getD_eq_getElem?_getD, List.getElem?_modify]
  simp [h]

/-- C123: `a['x'][p] = v` and `a.mask[p] = b` are not seen in an object whose data and mask are in other memory. -/
theorem write_apart (w w' : World V) (o : Op V) (i j : Nat) (st st' : Stat) (hi : w.stats[i]? = some st) (hj : w.stats[j]? = some st')
    (ho : (∃ name p v, o = .writeVar i name p v ∧ st.data.buf ≠ st'.data.buf) ∨ ∃ p b, o = .writeMask i p b ∧ st.mask.buf ≠ st'.mask.buf)
    (hs : step w o = .ok w') : w'.stats[j]? = some st' ∧ obs w' st' = obs w st' := by
  rcases ho with ⟨name, p, v, rfl, hne⟩ | ⟨p, b, rfl, hne⟩
  · obtain ⟨s, hx, hs⟩ := withStat_ok _ _ _ _ hs
    rw [hi] at hx
    injection hx with hx
    subst hx
    obtain ⟨m, hm, rfl⟩ := map_ok _ _ _ hs
    refine ⟨hj, ?_⟩
    have hb : m.getD st'.data.buf [] = w.cells.getD st'.data.buf [] := by
      unfold pokeVar at hm
      cases hg : get name st.data.fields with
      | none => rw [hg] at hm; cases hm
      | some s =>
        rw [hg] at hm
        dsimp only at hm
        cases hk : st.data.idx[p]? with
        | none => rw [hk] at hm; cases hm
        | some k =>
          rw [hk] at hm
          injection hm with hm
          subst hm
          exact getD_modify_ne _ _ _ _ hne
    unfold obs DArr.col DArr.rows
    dsimp only
    rw [hb]
  · obtain ⟨s, hx, hs⟩ := withStat_ok _ _ _ _ hs
    rw [hi] at hx
    injection hx with hx
    subst hx
    obtain ⟨m, hm, rfl⟩ := map_ok _ _ _ hs
    refine ⟨hj, ?_⟩
    have hb : m.getD st'.mask.buf [] = w.bits.getD st'.mask.buf [] := by
      unfold poke at hm
      cases hk : st.mask.idx[p]? with
      | none => rw [hk] at hm; cases hm
      | some k =>
        rw [hk] at hm
        injection hm with hm
        subst hm
        exact getD_modify_ne _ _ _ _ hne
    unfold obs Arr.vals
    dsimp only
    rw [hb]

/-- C123: in a program that does not index by names or by slices alone, whatever is done to the variables and the mask of one object, and to the
entries of its `attrs`, is not seen in any other object. -/
theorem independent_partial (ops : List (Op V)) (hv : ∀ o ∈ ops, o.isView = false) (i j : Nat) (hij : i ≠ j) (o : Op V) (st : Stat) (w' : World V)
    (ho : (∃ name p v, o = .writeVar i name p v) ∨ (∃ p b, o = .writeMask i p b) ∨ (∃ key vals, o = .setItem i key vals) ∨
      (∃ old new, o = .rename i old new) ∨ ∃ k v, o = .setAttr i k v)
    (hj : (run (World.start V) ops).stats[j]? = some st) (hs : step (run (World.start V) ops) o = .ok w') :
    w'.stats[j]? = some st ∧ obs w' st = obs (run (World.start V) ops) st := by
  have hg := run_good ops _ (start_good (V := V))
  have hown := run_own ops _ (start_good (V := V)) (fun i j st st' _ h _ => by simp [World.start] at h) hv
  generalize run (World.start V) ops = w at *
  have wr : ∀ (f : Stat → Except Err (World V)), withStat w i f = .ok w' → ∃ st0, w.stats[i]? = some st0 := fun f hf => by
    obtain ⟨s, hx, _⟩ := withStat_ok _ _ _ _ hf
    exact ⟨s, hx⟩
  rcases ho with ⟨name, p, v, rfl⟩ | ⟨p, b, rfl⟩ | ⟨key, vals, rfl⟩ | ⟨old, new, rfl⟩ | ⟨k, v, rfl⟩
  · obtain ⟨st0, hi⟩ := wr _ hs
    exact write_apart w w' _ i j st0 st hi hj (Or.inl ⟨_, _, _, rfl, (hown i j st0 st hij hi hj).1⟩) hs
  · obtain ⟨st0, hi⟩ := wr _ hs
    exact write_apart w w' _ i j st0 st hi hj (Or.inr ⟨_, _, rfl, (hown i j st0 st hij hi hj).2⟩) hs
  · refine others_kept w w' _ hg hs rfl j st hj ⟨?_, ?_, ?_⟩ <;> intro a b hx <;> injection hx
    rename_i h1 _ _
    exact hij h1
  · refine others_kept w w' _ hg hs rfl j st hj ⟨?_, ?_, ?_⟩ <;> intro a b hx <;> injection hx
    rename_i h1 _ _
    exact hij h1
  · refine others_kept w w' _ hg hs rfl j st hj ⟨?_, ?_, ?_⟩ <;> intro a b hx <;> injection hx
    rename_i h1 _ _
    exact hij h1

end NBK.StatObj
