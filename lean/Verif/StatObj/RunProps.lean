import Verif.StatObj.ItemProps
set_option linter.unusedSimpArgs false
/-!
# C123: all programs
-/
namespace NBK.StatObj
open NBK.PySlice
variable {V : Type} [Num V]

/-- All objects are well formed. -/
def Good (w : World V) : Prop := 0 < w.names.length ∧ ∀ st ∈ w.stats, Wf w st

omit [Num V] in
theorem add_ok (r : Except Err (World V × Stat)) (w' : World V) (h : add r = .ok w') :
    ∃ p, r = .ok p ∧ w' = { p.1 with stats := p.1.stats ++ [p.2] } := by
  cases r with
  | error e => cases h
  | ok p => injection h with h; exact ⟨p, rfl, h.symm⟩

omit [Num V] in
theorem update_ok (i : Nat) (r : Except Err (World V × Stat)) (w' : World V) (h : update i r = .ok w') :
    ∃ p, r = .ok p ∧ w' = { p.1 with stats := p.1.stats.set i p.2 } := by
  cases r with
  | error e => cases h
  | ok p => injection h with h; exact ⟨p, rfl, h.symm⟩

omit [Num V] in
theorem withStat_ok (w : World V) (i : Nat) (f : Stat → Except Err (World V)) (w' : World V) (h : withStat w i f = .ok w') :
    ∃ st, w.stats[i]? = some st ∧ f st = .ok w' := by
  unfold withStat at h
  cases hs : w.stats[i]? with
  | none => rw [hs] at h; cases h
  | some st => rw [hs] at h; exact ⟨st, rfl, h⟩

omit [Num V] in
theorem wf_stats {w : World V} {st : Stat} (l : List Stat) (h : Wf w st) : Wf { w with stats := l } st :=
  ⟨h.dims, h.ekeys, h.ckeys, h.edges, h.coords, h.sizes, h.data, h.mask, h.dsize, h.msize, h.attrs, h.fsum⟩

theorem good_add (w : World V) (p : World V × Stat) (h : Good w) (m : Made w p.1 p.2) : Good { p.1 with stats := p.1.stats ++ [p.2] } := by
  refine ⟨lt_of_lt_of_le h.1 m.ext.names.length_le, fun st hs => wf_stats _ ?_⟩
  dsimp only at hs
  rw [m.stats] at hs
  rcases List.mem_append.mp hs with hs | hs
  · exact (h.2 st hs).ext m.ext
  · rw [List.mem_singleton] at hs
    subst hs
    exact m.wf

theorem good_set (w : World V) (p : World V × Stat) (i : Nat) (h : Good w) (m : Made w p.1 p.2) : Good { p.1 with stats := p.1.stats.set i p.2 } := by
  refine ⟨lt_of_lt_of_le h.1 m.ext.names.length_le, fun st hs => wf_stats _ ?_⟩
  dsimp only at hs
  rw [m.stats] at hs
  rcases List.mem_or_eq_of_mem_set hs with hs | rfl
  · exact (h.2 st hs).ext m.ext
  · exact m.wf

/-- Memory of the same sizes. -/
structure Alike (w w' : World V) : Prop where
  nums : w'.nums.map List.length = w.nums.map List.length
  cells : (w'.cells.map fun l => l.map List.length) = w.cells.map fun l => l.map List.length
  bits : w'.bits.map List.length = w.bits.map List.length
  names : w'.names.length = w.names.length
  boxes : w'.boxes.length = w.boxes.length
  stats : w'.stats = w.stats

omit [Num V] in
theorem lengths_getD {α : Type} (a b : List (List α)) (h : a.map List.length = b.map List.length) (k : Nat) :
    a.length = b.length ∧ (a.getD k []).length = (b.getD k []).length := by
  have hl : a.length = b.length := by simpa using congrArg List.length h
  refine ⟨hl, ?_⟩
  have := congrArg (fun l => l.getD k 0) h
  simp only [List.getD_eq_getElem?_getD, List.getElem?_map] at this ⊢
  cases ha : a[k]? <;> cases hb : b[k]? <;> simp [ha, hb] at this ⊢ <;> exact this

omit [Num V] in
theorem Alike.wf {w w' : World V} (a : Alike w w') {st : Stat} (h : Wf w st) : Wf w' st := by
  have ar : ∀ x : Arr, x.In w.nums → x.In w'.nums := fun x hx => by
    obtain ⟨h1, h2⟩ := lengths_getD _ _ a.nums x.buf
    exact ⟨by rw [h1]; exact hx.1, fun k hk => by rw [h2]; exact hx.2 k hk⟩
  have cl : w'.cells.length = w.cells.length := by simpa using congrArg List.length a.cells
  have cr : ∀ k, (w'.cells.getD k []).map List.length = (w.cells.getD k []).map List.length := fun k => by
    have := congrArg (fun l => l.getD k []) a.cells
    simp only [List.getD_eq_getElem?_getD, List.getElem?_map] at this ⊢
    cases ha : w'.cells[k]? <;> cases hb : w.cells[k]? <;> simp [ha, hb] at this ⊢ <;> exact this
  exact { h with
    edges := fun p hp => ar _ (h.edges p hp)
    coords := fun p hp => ar _ (h.coords p hp)
    data := by
      refine ⟨by rw [cl]; exact h.data.buf, fun k hk => ?_, fun r hr => ?_, h.data.slots, h.data.names, h.data.places⟩
      · have := congrArg List.length (cr st.data.buf)
        rw [List.length_map, List.length_map] at this
        rw [this]
        exact h.data.idx k hk
      · have : r.length ∈ (w'.cells.getD st.data.buf []).map List.length := List.mem_map.mpr ⟨r, hr, rfl⟩
        rw [cr] at this
        obtain ⟨q, hq, hqr⟩ := List.mem_map.mp this
        rw [← hqr]
        exact h.data.width q hq
    mask := by
      obtain ⟨h1, h2⟩ := lengths_getD _ _ a.bits st.mask.buf
      exact ⟨by rw [h1]; exact h.mask.1, fun k hk => by rw [h2]; exact h.mask.2 k hk⟩
    attrs := fun p hp => by rw [a.boxes]; exact h.attrs p hp
    fsum := by rw [a.names]; exact h.fsum }

theorem Alike.good {w w' : World V} (a : Alike w w') (h : Good w) : Good w' :=
  ⟨by rw [a.names]; exact h.1, fun st hs => a.wf (h.2 st (by rw [a.stats] at hs; exact hs))⟩

omit [Num V] in
theorem map_modify {α β : Type} (f : α → β) (g : α → α) (h : ∀ x, f (g x) = f x) (l : List α) (i : Nat) : (l.modify i g).map f = l.map f := by
  apply List.ext_getElem?
  intro k
  rw [List.getElem?_map, List.getElem?_map, List.getElem?_modify]
  cases l[k]? with
  | none => rfl
  | some x => by_cases hk : i = k <;> simp [hk, h]

omit [Num V] in
theorem poke_lengths {α : Type} (mem mem' : List (List α)) (a : Arr) (p : Nat) (v : α) (h : poke mem a p v = .ok mem') :
    mem'.map List.length = mem.map List.length := by
  unfold poke at h
  cases hk : a.idx[p]? with
  | none => rw [hk] at h; cases h
  | some k =>
    rw [hk] at h
    injection h with h
    subst h
    exact map_modify _ _ (fun x => by simp) _ _

omit [Num V] in
theorem pokeVar_lengths (mem mem' : List (List (List V))) (d : DArr) (name : String) (p : Nat) (v : V) (h : pokeVar mem d name p v = .ok mem') :
    (mem'.map fun l => l.map List.length) = mem.map fun l => l.map List.length := by
  unfold pokeVar at h
  cases hs : get name d.fields with
  | none => rw [hs] at h; cases h
  | some s =>
    rw [hs] at h
    dsimp only at h
    cases hk : d.idx[p]? with
    | none => rw [hk] at h; cases h
    | some k =>
      rw [hk] at h
      injection h with h
      subst h
      exact map_modify _ _ (fun x => map_modify _ _ (fun r => by simp) _ _) _ _

omit [Num V] in
theorem map_ok {α β : Type} (r : Except Err α) (f : α → β) (b : β) (h : r.map f = .ok b) : ∃ a, r = .ok a ∧ b = f a := by
  cases r with
  | error e => cases h
  | ok a => injection h with h; exact ⟨a, rfl, h.symm⟩

/-- Statements that write into memory that exists. -/
def Op.isWrite : Op V → Bool
  | .writeVar .. | .writeMask .. | .writeEdge .. | .writeCoord .. | .mutAttr .. | .appendSum .. => true
  | _ => false

/-- What a statement does: it adds memory, an object, changes an object, or writes. -/
inductive Effect (w : World V) : Op V → World V → Prop
  | memory (o : Op V) (w' : World V) (ext : Ext w w') (stats : w'.stats = w.stats) : Effect w o w'
  | make (o : Op V) (p : World V × Stat) (m : Made w p.1 p.2) : Effect w o { p.1 with stats := p.1.stats ++ [p.2] }
  | change (o : Op V) (i : Nat) (st : Stat) (p : World V × Stat) (hi : w.stats[i]? = some st) (m : Made w p.1 p.2)
      (ho : (∃ key vals, o = .setItem i key vals) ∨ (∃ old new, o = .rename i old new) ∨ ∃ k v, o = .setAttr i k v) :
      Effect w o { p.1 with stats := p.1.stats.set i p.2 }
  | write (o : Op V) (w' : World V) (ho : o.isWrite = true) (a : Alike w w') : Effect w o w'

omit [Num V] in
theorem put_attrs (k : String) (b : Nat) (d : List (String × Nat)) (n : Nat) (h : ∀ p ∈ d, p.2 < n) (hb : b < n + 1) : ∀ p ∈ put k b d, p.2 < n + 1 := by
  intro p hp
  rcases put_mem _ _ _ p hp with rfl | hp
  · exact hb
  · have := h p hp; omega

omit [Num V] in
theorem known_spec (w : World V) (edges : List Arr) (data : DArr) (fsum : Nat) (attrs : List (String × Nat)) (h : known w edges data fsum attrs = true) :
    (∀ e ∈ edges, e.In w.nums) ∧ data.In w.cells ∧ fsum < w.names.length ∧ ∀ p ∈ attrs, p.2 < w.boxes.length := by
  unfold known at h
  simp only [Bool.and_eq_true, List.all_eq_true, decide_eq_true_eq, beq_iff_eq] at h
  obtain ⟨⟨⟨he, ⟨⟨⟨⟨h1, h2⟩, h3⟩, h4⟩, h5⟩, h6⟩, hf⟩, ha⟩ := h
  exact ⟨fun e hx => he e hx, ⟨h1, h2, h3, h4, h5, h6⟩, hf, ha⟩

theorem step_effect (w w' : World V) (o : Op V) (h : Good w) (hs : step w o = .ok w') : Effect w o w' := by
  have wf : ∀ i st, w.stats[i]? = some st → Wf w st := fun i st hi => h.2 st (List.mem_of_getElem? hi)
  cases o with
  | array l =>
    injection hs with hs
    subst hs
    exact .memory _ _ ⟨⟨_, rfl⟩, List.prefix_rfl, List.prefix_rfl, List.prefix_rfl, List.prefix_rfl⟩ rfl
  | records l =>
    injection hs with hs
    subst hs
    exact .memory _ _ ⟨List.prefix_rfl, ⟨_, rfl⟩, List.prefix_rfl, List.prefix_rfl, List.prefix_rfl⟩ rfl
  | list l =>
    injection hs with hs
    subst hs
    exact .memory _ _ ⟨List.prefix_rfl, List.prefix_rfl, List.prefix_rfl, ⟨_, rfl⟩, List.prefix_rfl⟩ rfl
  | box v =>
    injection hs with hs
    subst hs
    exact .memory _ _ ⟨List.prefix_rfl, List.prefix_rfl, List.prefix_rfl, List.prefix_rfl, ⟨_, rfl⟩⟩ rfl
  | init dims edges data dshape fsum attrs =>
    unfold step at hs
    dsimp only at hs
    split at hs
    · rename_i hk
      obtain ⟨k1, k2, k3, k4⟩ := known_spec _ _ _ _ _ hk
      obtain ⟨p, hp, rfl⟩ := add_ok _ _ hs
      exact .make _ p (init_made w p.1 p.2 _ _ _ _ _ _ _ k1 k2 k3 k4 hp).1
    · cases hs
  | fromState i =>
    obtain ⟨st, hi, hs⟩ := withStat_ok _ _ _ _ hs
    obtain ⟨p, hp, rfl⟩ := add_ok _ _ hs
    exact .make _ p (fromState_made w p.1 st p.2 (wf i st hi) h.1 hp).1
  | copy i =>
    obtain ⟨st, hi, hs⟩ := withStat_ok _ _ _ _ hs
    obtain ⟨p, hp, rfl⟩ := add_ok _ _ hs
    injection hp with hp
    subst hp
    exact .make _ _ (copy_made w st (wf i st hi))
  | squeeze i dim =>
    obtain ⟨st, hi, hs⟩ := withStat_ok _ _ _ _ hs
    obtain ⟨p, hp, rfl⟩ := add_ok _ _ hs
    exact .make _ p (squeeze_made w p.1 st p.2 dim (wf i st hi) hp).1
  | take i ind =>
    obtain ⟨st, hi, hs⟩ := withStat_ok _ _ _ _ hs
    obtain ⟨p, hp, rfl⟩ := add_ok _ _ hs
    exact .make _ p (take_made w p.1 st p.2 ind (wf i st hi) hp).1
  | getNames i names =>
    obtain ⟨st, hi, hs⟩ := withStat_ok _ _ _ _ hs
    obtain ⟨p, hp, rfl⟩ := add_ok _ _ hs
    exact .make _ p (getNames_made w p.1 st p.2 names (wf i st hi) hp).1
  | getItem i keys =>
    obtain ⟨st, hi, hs⟩ := withStat_ok _ _ _ _ hs
    obtain ⟨p, hp, rfl⟩ := add_ok _ _ hs
    exact .make _ p (getItem_made w p.1 st p.2 keys (wf i st hi) hp)
  | reindex i dim e rows =>
    obtain ⟨st, hi, hs⟩ := withStat_ok _ _ _ _ hs
    obtain ⟨p, hp, rfl⟩ := add_ok _ _ hs
    exact .make _ p (reindex_made w p.1 st p.2 dim e rows (wf i st hi) hp).1
  | setItem i key vals =>
    obtain ⟨st, hi, hs⟩ := withStat_ok _ _ _ _ hs
    obtain ⟨p, hp, rfl⟩ := update_ok _ _ _ hs
    exact .change _ i st p hi (setItem_made w p.1 st p.2 key vals (wf i st hi) hp).1 (Or.inl ⟨_, _, rfl⟩)
  | rename i old new =>
    obtain ⟨st, hi, hs⟩ := withStat_ok _ _ _ _ hs
    obtain ⟨p, hp, rfl⟩ := update_ok _ _ _ hs
    obtain ⟨s, hr, rfl⟩ := map_ok _ _ _ hp
    exact .change _ i st (w, s) hi ⟨Ext.refl w, rfl, (rename_wf w st s old new (wf i st hi) hr).1⟩ (Or.inr (Or.inl ⟨_, _, rfl⟩))
  | setAttr i k v =>
    obtain ⟨st, hi, hs⟩ := withStat_ok _ _ _ _ hs
    obtain ⟨p, hp, rfl⟩ := update_ok _ _ _ hs
    injection hp with hp
    subst hp
    have e : Ext w { w with boxes := w.boxes ++ [v] } := ⟨List.prefix_rfl, List.prefix_rfl, List.prefix_rfl, List.prefix_rfl, ⟨_, rfl⟩⟩
    refine .change _ i st _ hi ⟨e, rfl, ?_⟩ (Or.inr (Or.inr ⟨_, _, rfl⟩))
    have hw := (wf i st hi).ext e
    exact { hw with
      data := hw.data
      mask := hw.mask
      attrs := by
        have := put_attrs k w.boxes.length st.attrs w.boxes.length (wf i st hi).attrs (by omega)
        simpa using this }
  | writeVar i name p v =>
    obtain ⟨st, hi, hs⟩ := withStat_ok _ _ _ _ hs
    obtain ⟨m, hm, rfl⟩ := map_ok _ _ _ hs
    exact .write _ _ rfl ⟨rfl, pokeVar_lengths _ _ _ _ _ _ hm, rfl, rfl, rfl, rfl⟩
  | writeMask i p b =>
    obtain ⟨st, hi, hs⟩ := withStat_ok _ _ _ _ hs
    obtain ⟨m, hm, rfl⟩ := map_ok _ _ _ hs
    exact .write _ _ rfl ⟨rfl, rfl, poke_lengths _ _ _ _ _ hm, rfl, rfl, rfl⟩
  | writeEdge i dim p v =>
    obtain ⟨st, hi, hs⟩ := withStat_ok _ _ _ _ hs
    cases hg : get dim st.edges with
    | none => rw [hg] at hs; cases hs
    | some a =>
      rw [hg] at hs
      obtain ⟨m, hm, rfl⟩ := map_ok _ _ _ hs
      exact .write _ _ rfl ⟨poke_lengths _ _ _ _ _ hm, rfl, rfl, rfl, rfl, rfl⟩
  | writeCoord i dim p v =>
    obtain ⟨st, hi, hs⟩ := withStat_ok _ _ _ _ hs
    cases hg : get dim st.coords with
    | none => rw [hg] at hs; cases hs
    | some a =>
      rw [hg] at hs
      obtain ⟨m, hm, rfl⟩ := map_ok _ _ _ hs
      exact .write _ _ rfl ⟨poke_lengths _ _ _ _ _ hm, rfl, rfl, rfl, rfl, rfl⟩
  | mutAttr i k v =>
    obtain ⟨st, hi, hs⟩ := withStat_ok _ _ _ _ hs
    cases hg : get k st.attrs with
    | none => rw [hg] at hs; cases hs
    | some b =>
      rw [hg] at hs
      injection hs with hs
      subst hs
      exact .write _ _ rfl ⟨rfl, rfl, rfl, rfl, by simp, rfl⟩
  | appendSum i name =>
    obtain ⟨st, hi, hs⟩ := withStat_ok _ _ _ _ hs
    injection hs with hs
    subst hs
    exact .write _ _ rfl ⟨rfl, rfl, rfl, by simp, rfl, rfl⟩

theorem step_good (w w' : World V) (o : Op V) (h : Good w) (hs : step w o = .ok w') : Good w' := by
  cases step_effect w w' o h hs with
  | memory _ ext stats =>
    exact ⟨lt_of_lt_of_le h.1 ext.names.length_le, fun st hx => (h.2 st (by rw [stats] at hx; exact hx)).ext ext⟩
  | make p m => exact good_add w p h m
  | change i st p hi m ho => exact good_set w p i h m
  | write _ ho a => exact a.good h

theorem run_good (ops : List (Op V)) (w : World V) (h : Good w) : Good (run w ops) := by
  induction ops generalizing w with
  | nil => exact h
  | cons o ops ih =>
    unfold run
    cases hs : step w o with
    | ok w' => exact ih w' (step_good w w' o h hs)
    | error e => exact ih w h

theorem start_good : Good (World.start V) := ⟨by simp [World.start], fun st h => by cases h⟩

/-- C123: after any program every object has as many values of every variable and as many entries of the mask as there are bins; the edges along
each axis are one more than the coordinates. -/
theorem shapes_agree (ops : List (Op V)) (st : Stat) (h : st ∈ (run (World.start V) ops).stats) :
    (∀ c ∈ (obs (run (World.start V) ops) st).cols, c.2.length = ((obs (run (World.start V) ops) st).coords.map fun p => p.2.length).prod) ∧
    (obs (run (World.start V) ops) st).mask.length = ((obs (run (World.start V) ops) st).coords.map fun p => p.2.length).prod ∧
    (obs (run (World.start V) ops) st).coords.map Prod.fst = st.dims ∧ (obs (run (World.start V) ops) st).edges.map Prod.fst = st.dims ∧
    ((obs (run (World.start V) ops) st).edges.map fun p => p.2.length) = (obs (run (World.start V) ops) st).coords.map fun p => p.2.length + 1 := by
  have hw := (run_good ops _ start_good).2 st h
  generalize run (World.start V) ops = w at *
  have hc : ((obs w st).coords.map fun p => p.2.length) = st.shape := by
    simp only [obs, List.map_map, Stat.shape]
    apply List.map_congr_left
    intro p _
    simp [vals_length]
  refine ⟨?_, ?_, ?_, ?_, ?_⟩
  · intro c hx
    obtain ⟨p, _, rfl⟩ := List.mem_map.mp hx
    rw [hc]
    dsimp only
    rw [DArr.col, List.length_map, rows_length, hw.dsize]
    rfl
  · rw [hc]
    simp only [obs]
    rw [vals_length, hw.msize]
    rfl
  · rw [← hw.ckeys]
    simp [obs]
  · rw [← hw.ekeys]
    simp [obs]
  · have := hw.sizes
    simp only [obs, List.map_map]
    have a : ((fun (p : String × List V) => p.2.length) ∘ fun (p : String × Arr) => (p.1, p.2.vals Num.zero w.nums)) = fun p => p.2.idx.length := by
      funext p; simp [vals_length]
    have b : ((fun (p : String × List V) => p.2.length + 1) ∘ fun (p : String × Arr) => (p.1, p.2.vals Num.zero w.nums)) = fun p => p.2.idx.length + 1 := by
      funext p; simp [vals_length]
    rw [a, b, this]

/-- C123: a statement that makes an object, or changes one without writing into memory, leaves what is seen of all the other objects as it is. -/
theorem others_kept (w w' : World V) (o : Op V) (h : Good w) (hs : step w o = .ok w') (hw : o.isWrite = false) (j : Nat) (st : Stat)
    (hj : w.stats[j]? = some st)
    (ho : (∀ key vals, o ≠ .setItem j key vals) ∧ (∀ old new, o ≠ .rename j old new) ∧ ∀ k v, o ≠ .setAttr j k v) :
    w'.stats[j]? = some st ∧ obs w' st = obs w st := by
  have hwf := h.2 st (List.mem_of_getElem? hj)
  have hlt := (List.getElem?_eq_some_iff.mp hj).1
  cases step_effect w w' o h hs with
  | memory _ ext stats => exact ⟨by rw [stats]; exact hj, hwf.obs ext⟩
  | make p m =>
    refine ⟨?_, hwf.obs ⟨m.ext.nums, m.ext.cells, m.ext.bits, m.ext.names, m.ext.boxes⟩⟩
    dsimp only
    rw [m.stats, List.getElem?_append_left hlt]
    exact hj
  | change i st' p hi m hx =>
    refine ⟨?_, hwf.obs ⟨m.ext.nums, m.ext.cells, m.ext.bits, m.ext.names, m.ext.boxes⟩⟩
    dsimp only
    rw [m.stats, List.getElem?_set_ne]
    · exact hj
    · rintro rfl
      rcases hx with ⟨a, b, rfl⟩ | ⟨a, b, rfl⟩ | ⟨a, b, rfl⟩
      · exact ho.1 a b rfl
      · exact ho.2.1 a b rfl
      · exact ho.2.2 a b rfl
  | write _ hx a => rw [hw] at hx; cases hx

end NBK.StatObj
