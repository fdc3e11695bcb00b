import Verif.ZhistObj.Model
import Verif.Zhist.Props

/-! # Programs with `RedshiftHistogram` objects -/
set_option linter.unusedSimpArgs false
namespace NBK.ZhistObj

/-! ## The worlds of programs -/

/-- All addresses exist. -/
structure Wf (w : World) : Prop where
  dict : ∀ (k : Nat) (d : Attrs), w.dicts[k]? = some d → w.has d.edges = true
  obj : ∀ (o : Nat) (x : Obj), w.objs[o]? = some x → x.attrs < w.dicts.length ∧ w.has x.binEdges = true

theorem has_mono (w w' : World) (h : w.arrs.length ≤ w'.arrs.length) (s : Seq) (hs : w.has s = true) : w'.has s = true := by
  cases s with
  | arr a => simp only [World.has, decide_eq_true_eq] at *; omega
  | list l => rfl

theorem alloc_spec (w : World) (v : SeqV) : w.arrs.length ≤ (alloc w.arrs v).1.length ∧
    (∀ k, k < w.arrs.length → (alloc w.arrs v).1[k]? = w.arrs[k]?) ∧
    (∀ w' : World, w'.arrs = (alloc w.arrs v).1 → w'.has (alloc w.arrs v).2 = true ∧ w'.value (alloc w.arrs v).2 = v) := by
  cases v with
  | arr l =>
    refine ⟨by simp [alloc], fun k hk => by simp [alloc, List.getElem?_append_left hk], ?_⟩
    intro w' h
    simp [alloc, World.has, World.value, h]
  | list l => exact ⟨Nat.le_refl _, fun _ _ => rfl, fun w' h => ⟨rfl, rfl⟩⟩

theorem value_eq (w w' : World) (s : Seq) (hs : w.has s = true) (h : ∀ k, k < w.arrs.length → w'.arrs[k]? = w.arrs[k]?) : w'.value s = w.value s := by
  cases s with
  | arr a => simp only [World.has, decide_eq_true_eq] at hs; simp only [World.value, h a hs]
  | list l => rfl

theorem edgesOf_spec (e : Env) (w : World) (z : List (List ℚ)) (b : Bins) (w' : World) (s : Seq) (h : edgesOf e w z b = .ok (w', s)) :
    w'.dicts = w.dicts ∧ w'.cats = w.cats ∧ w'.objs = w.objs ∧ w'.files = w.files ∧ w.arrs.length ≤ w'.arrs.length ∧ (∀ k, k < w.arrs.length → w'.arrs[k]? = w.arrs[k]?) ∧ w'.has s = true := by
  cases b with
  | seq s' =>
    simp only [edgesOf] at h
    split at h
    · rename_i hs; cases h; exact ⟨rfl, rfl, rfl, rfl, Nat.le_refl _, fun _ _ => rfl, hs⟩
    · cases h
  | int n =>
    simp only [edgesOf] at h
    split at h
    · cases h
    · cases h; exact ⟨rfl, rfl, rfl, rfl, by simp, fun k hk => by simp [List.getElem?_append_left hk], by simp [World.has]⟩
  | none =>
    simp only [edgesOf] at h
    split at h
    · cases h
    · cases h; exact ⟨rfl, rfl, rfl, rfl, by simp, fun k hk => by simp [List.getElem?_append_left hk], by simp [World.has]⟩

theorem runWith_edges (e : Env) (w : World) (src : Option (Nat × Nat)) (a : Attrs) : (∀ b er, runWith e w src a = .half b er → b = a.edges) ∧ (∀ b r, runWith e w src a = .done b r → b = a.edges) := by
  constructor
  · intro b er h
    unfold runWith at h
    split at h
    · cases h
    · split at h
      · cases h
      · split at h
        · cases h
        · dsimp only at h
          split at h <;> cases h
          rfl
  · intro b er h
    unfold runWith at h
    split at h
    · cases h
    · split at h
      · cases h
      · split at h
        · cases h
        · dsimp only at h
          split at h <;> cases h
          rfl

/-- What a successful construction adds. -/
theorem make_world (e : Env) (w : World) (a : Args) (w' : World) (h : make e w a = .ok w') : ∃ w1 c z s r, w.cats[a.source]? = some c ∧ c.cols a.redshift = some z ∧
    (∀ n, a.weight = some n → (c.cols n).isSome = true) ∧ edgesOf e w z a.bins = .ok (w1, s) ∧
    runWith e w1 (some (a.source, a.cosmo)) ⟨s, a.fsky, a.redshift, a.weight, a.cosmo⟩ = .done s r ∧
    w' = { w1 with dicts := w1.dicts ++ [⟨s, a.fsky, a.redshift, a.weight, a.cosmo⟩], objs := w1.objs ++ [⟨some (a.source, a.cosmo), some c.comm, w1.dicts.length, s, r⟩] } := by
  unfold make at h
  split at h
  · cases h
  rename_i c hc
  split at h
  · cases h
  rename_i z hz
  split at h
  · cases h
  rename_i hw
  split at h
  · cases h
  rename_i w1 s hs
  dsimp only at h
  split at h
  · cases h
  · cases h
  rename_i b r hr
  cases h
  have hb := (runWith_edges e w1 _ _).2 b r hr
  simp only at hb
  subst hb
  refine ⟨w1, c, z, b, r, hc, hz, ?_, hs, hr, rfl⟩
  intro n hn
  rw [hn] at hw
  simp only [Option.elim, Option.isNone_iff_eq_none] at hw
  exact Option.isSome_iff_ne_none.2 hw

/-- The old part of the world after an operation: arrays, dictionaries, objects and files that no one touched. -/
theorem wf_step (e : Env) (w : World) (op : Op) (h : Wf w) : Wf (step e w op).1 := by
  cases op with
  | make a =>
    simp only [step]
    split
    · exact h
    · rename_i w' hw
      obtain ⟨w1, c, z, s, r, hc, hz, hwt, hs, hr, rfl⟩ := make_world e w a w' hw
      obtain ⟨e1, e2, e3, e4, e5, e6, e7⟩ := edgesOf_spec e w z a.bins w1 s hs
      constructor
      · intro k d hk
        dsimp only at hk
        rw [e1] at hk
        by_cases hlt : k < w.dicts.length
        · rw [List.getElem?_append_left hlt] at hk
          exact has_mono w _ e5 _ (h.dict k d hk)
        · rw [List.getElem?_append_right (by omega)] at hk
          have := List.mem_of_getElem? hk
          simp only [List.mem_singleton] at this
          subst this
          exact has_mono w1 _ (Nat.le_refl _) _ e7
      · intro o x hx
        dsimp only at hx ⊢
        rw [e3] at hx
        by_cases hlt : o < w.objs.length
        · rw [List.getElem?_append_left hlt] at hx
          obtain ⟨k1, k2⟩ := h.obj o x hx
          refine ⟨?_, has_mono w _ e5 _ k2⟩
          simp [e1]; omega
        · rw [List.getElem?_append_right (by omega)] at hx
          have := List.mem_of_getElem? hx
          simp only [List.mem_singleton] at this
          subst this
          exact ⟨by simp, has_mono w1 _ (Nat.le_refl _) _ e7⟩
  | run o =>
    simp only [step]
    split
    · exact h
    rename_i x hx
    split
    · exact h
    rename_i d hd
    have hlt := (List.getElem?_eq_some_iff.1 hx).1
    split
    · exact h
    · rename_i b er hr
      have hb := (runWith_edges e w x.src d).1 b er hr
      subst hb
      refine ⟨h.dict, ?_⟩
      intro o' x' hx'
      dsimp only at hx'
      by_cases ho : o = o'
      · subst ho
        rw [List.getElem?_set_self hlt] at hx'
        cases hx'
        exact ⟨(h.obj o x hx).1, h.dict _ d hd⟩
      · rw [List.getElem?_set_ne ho] at hx'; exact h.obj o' x' hx'
    · rename_i b r hr
      have hb := (runWith_edges e w x.src d).2 b r hr
      subst hb
      refine ⟨h.dict, ?_⟩
      intro o' x' hx'
      dsimp only at hx'
      by_cases ho : o = o'
      · subst ho
        rw [List.getElem?_set_self hlt] at hx'
        cases hx'
        exact ⟨(h.obj o x hx).1, h.dict _ d hd⟩
      · rw [List.getElem?_set_ne ho] at hx'; exact h.obj o' x' hx'
  | setAttr o k =>
    simp only [step]
    split
    · exact h
    rename_i x hx
    split
    · exact h
    rename_i d hd
    split
    · rename_i hk
      constructor
      · intro j d' hj
        dsimp only at hj
        by_cases hjx : x.attrs = j
        · subst hjx
          rw [List.getElem?_set_self (h.obj o x hx).1] at hj
          cases hj
          cases k with
          | edges s => exact hk
          | _ => exact h.dict _ d hd
        · rw [List.getElem?_set_ne hjx] at hj; exact h.dict j d' hj
      · intro o' x' hx'
        obtain ⟨k1, k2⟩ := h.obj o' x' hx'
        exact ⟨by simpa using k1, k2⟩
    · exact h
  | poke a i v =>
    simp only [step]
    split
    · exact h
    · split
      · exact ⟨fun k d hk => has_mono w _ (by simp) _ (h.dict k d hk), fun o x hx => ⟨(h.obj o x hx).1, has_mono w _ (by simp) _ (h.obj o x hx).2⟩⟩
      · exact h
  | setCol c n v =>
    simp only [step]
    split
    · exact h
    · exact ⟨h.dict, h.obj⟩
  | copy o =>
    simp only [step]
    split
    · exact h
    · rename_i x hx
      refine ⟨h.dict, ?_⟩
      intro o' x' hx'
      dsimp only at hx'
      by_cases hlt : o' < w.objs.length
      · rw [List.getElem?_append_left hlt] at hx'; exact h.obj o' x' hx'
      · rw [List.getElem?_append_right (by omega)] at hx'
        have := List.mem_of_getElem? hx'
        simp only [List.mem_singleton] at this
        subst this
        exact h.obj o x hx
  | pickle o =>
    simp only [step]
    split
    · exact h
    rename_i x hx
    split
    · exact h
    rename_i d hd
    dsimp only
    obtain ⟨a1, a2, a3⟩ := alloc_spec w (w.value x.binEdges)
    generalize hA : alloc w.arrs (w.value x.binEdges) = A at *
    have hB := alloc_spec { w with arrs := A.1 } (w.value d.edges)
    dsimp only at hB
    generalize hB' : alloc A.1 (w.value d.edges) = B at *
    obtain ⟨b1, b2, b3⟩ := hB
    split
    · constructor
      · intro k d' hk
        dsimp only at hk
        by_cases hlt : k < w.dicts.length
        · rw [List.getElem?_append_left hlt] at hk
          exact has_mono w _ a1 _ (h.dict k d' hk)
        · rw [List.getElem?_append_right (by omega)] at hk
          have := List.mem_of_getElem? hk
          simp only [List.mem_singleton] at this
          subst this
          exact (a3 _ rfl).1
      · intro o' x' hx'
        dsimp only at hx'
        by_cases hlt : o' < w.objs.length
        · rw [List.getElem?_append_left hlt] at hx'
          exact ⟨by simp; exact Nat.lt_succ_of_lt (h.obj o' x' hx').1, has_mono w _ a1 _ (h.obj o' x' hx').2⟩
        · rw [List.getElem?_append_right (by omega)] at hx'
          have := List.mem_of_getElem? hx'
          simp only [List.mem_singleton] at this
          subst this
          exact ⟨by simp, (a3 _ rfl).1⟩
    · constructor
      · intro k d' hk
        dsimp only at hk
        by_cases hlt : k < w.dicts.length
        · rw [List.getElem?_append_left hlt] at hk
          exact has_mono w _ (Nat.le_trans a1 b1) _ (h.dict k d' hk)
        · rw [List.getElem?_append_right (by omega)] at hk
          have := List.mem_of_getElem? hk
          simp only [List.mem_singleton] at this
          subst this
          exact (b3 _ rfl).1
      · intro o' x' hx'
        dsimp only at hx'
        by_cases hlt : o' < w.objs.length
        · rw [List.getElem?_append_left hlt] at hx'
          exact ⟨by simp; exact Nat.lt_succ_of_lt (h.obj o' x' hx').1, has_mono w _ (Nat.le_trans a1 b1) _ (h.obj o' x' hx').2⟩
        · rw [List.getElem?_append_right (by omega)] at hx'
          have := List.mem_of_getElem? hx'
          simp only [List.mem_singleton] at this
          subst this
          exact ⟨by simp, has_mono { w with arrs := A.1 } _ b1 _ (a3 _ rfl).1⟩
  | save o path =>
    simp only [step]
    split
    · exact h
    · split
      · exact h
      · exact h
      · exact ⟨h.dict, h.obj⟩
  | load path comm =>
    simp only [step]
    split
    · exact h
    rename_i f hf
    dsimp only
    obtain ⟨a1, a2, a3⟩ := alloc_spec w f.binEdges
    generalize hA : alloc w.arrs f.binEdges = A at *
    have hB := alloc_spec { w with arrs := A.1 } f.edges
    dsimp only at hB
    generalize hB' : alloc A.1 f.edges = B at *
    obtain ⟨b1, b2, b3⟩ := hB
    constructor
    · intro k d' hk
      dsimp only at hk
      by_cases hlt : k < w.dicts.length
      · rw [List.getElem?_append_left hlt] at hk
        exact has_mono w _ (Nat.le_trans a1 b1) _ (h.dict k d' hk)
      · rw [List.getElem?_append_right (by omega)] at hk
        have := List.mem_of_getElem? hk
        simp only [List.mem_singleton] at this
        subst this
        exact (b3 _ rfl).1
    · intro o' x' hx'
      dsimp only at hx'
      by_cases hlt : o' < w.objs.length
      · rw [List.getElem?_append_left hlt] at hx'
        exact ⟨by simp; exact Nat.lt_succ_of_lt (h.obj o' x' hx').1, has_mono w _ (Nat.le_trans a1 b1) _ (h.obj o' x' hx').2⟩
      · rw [List.getElem?_append_right (by omega)] at hx'
        have := List.mem_of_getElem? hx'
        simp only [List.mem_singleton] at this
        subst this
        exact ⟨by simp, has_mono { w with arrs := A.1 } _ b1 _ (a3 _ rfl).1⟩

theorem wf_run (e : Env) (l : List Op) : ∀ w, Wf w → Wf (run e w l) := by
  induction l with
  | nil => intro w h; exact h
  | cons op l ih => intro w h; exact ih _ (wf_step e w op h)

end NBK.ZhistObj
