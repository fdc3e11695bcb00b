import Verif.CatObj.DerivProps

/-! # `CatalogSource` objects: who shares a dictionary of attributes -/
set_option linter.unusedSimpArgs false
namespace NBK.CatObj
open NBK.Slicing (Index)

variable {ρ δ V : Type}

/-- The reference to the dictionary of an object. -/
def ref (w : World ρ δ V) (k : Nat) : Option Nat := (w.objs[k]?).bind Obj.attrs

/-- Every reference leads to a dictionary. -/
def Refs (w : World ρ δ V) : Prop := ∀ k r, ref w k = some r → r < w.dicts.length

/-- Two objects with one dictionary. -/
def shares (w : World ρ δ V) (i j : Nat) : Bool :=
  match ref w i, ref w j with
  | some a, some b => a == b
  | _, _ => false

theorem shares_iff (w : World ρ δ V) (i j : Nat) : shares w i j = true ↔ ∃ r, ref w i = some r ∧ ref w j = some r := by
  unfold shares
  cases h1 : ref w i with
  | none => exact ⟨fun h => (by cases h), fun ⟨r, e, _⟩ => (by cases e)⟩
  | some a =>
    cases h2 : ref w j with
    | none => exact ⟨fun h => (by cases h), fun ⟨r, _, e⟩ => (by cases e)⟩
    | some b =>
      dsimp only
      constructor
      · intro h; rw [beq_iff_eq] at h; exact ⟨a, rfl, by rw [h]⟩
      · rintro ⟨r, e1, e2⟩; cases e1; cases e2; simp

theorem attrsOf_ref (w : World ρ δ V) (k : Nat) : w.attrsOf k = ((ref w k).bind fun r => w.dicts[r]?).getD [] := rfl

theorem ref_lt (w : World ρ δ V) (k r : Nat) (h : ref w k = some r) : k < w.objs.length := by
  by_contra hk
  unfold ref at h
  rw [List.getElem?_eq_none (Nat.le_of_not_lt hk)] at h
  cases h

theorem ref_touch (w : World ρ δ V) (i : Nat) (hi : i < w.objs.length) :
    (w.touch i).2 = (ref w i).getD w.dicts.length ∧ (∀ k, ref (w.touch i).1 k = if k = i then some ((ref w i).getD w.dicts.length) else ref w k) ∧
      (w.touch i).1.dicts = (if ref w i = none then w.dicts ++ [[]] else w.dicts) := by
  unfold World.touch
  rw [List.getElem?_eq_getElem hi]
  dsimp only
  have e : ref w i = (w.objs[i]).attrs := by unfold ref; rw [List.getElem?_eq_getElem hi]; rfl
  cases ha : (w.objs[i]).attrs with
  | some r =>
    rw [ha] at e
    dsimp only
    refine ⟨by rw [e]; rfl, ?_, by rw [e]; rfl⟩
    intro k
    by_cases hk : k = i
    · rw [if_pos hk, hk, e]; rfl
    · rw [if_neg hk]
  | none =>
    rw [ha] at e
    dsimp only
    refine ⟨by rw [e]; rfl, ?_, by rw [e]; rfl⟩
    intro k
    unfold ref
    dsimp only
    by_cases hk : k = i
    · rw [if_pos hk, hk, List.getElem?_set_self hi]
      have e' := e
      unfold ref at e'
      rw [e']
      rfl
    · rw [if_neg hk, List.getElem?_set_ne (fun h => hk h.symm)]

theorem ref_add (w : World ρ δ V) (o : Obj ρ δ) (k : Nat) : ref (w.add o).1 k = if k = w.objs.length then o.attrs else ref w k := by
  unfold ref
  show (((w.objs ++ [o])[k]?).bind Obj.attrs) = _
  by_cases hk : k = w.objs.length
  · rw [if_pos hk, hk, List.getElem?_append_right (Nat.le_refl _), Nat.sub_self]; rfl
  · rw [if_neg hk]
    by_cases hl : k < w.objs.length
    · rw [List.getElem?_append_left hl]
    · rw [List.getElem?_eq_none (by simp; omega), List.getElem?_eq_none (by omega)]

theorem ref_setOver (w : World ρ δ V) (i : Nat) (f : List (String × Col ρ) → List (String × Col ρ)) (k : Nat) : ref (w.setOver i f) k = ref w k := by
  unfold ref
  cases hk : w.objs[k]? with
  | none =>
    have : ¬ k < (w.setOver i f).objs.length := by
      rw [(setOver_rest w i f).2.2]
      intro h
      rw [List.getElem?_eq_getElem h] at hk
      cases hk
    rw [List.getElem?_eq_none (Nat.le_of_not_lt this)]
  | some o =>
    rw [setOver_old w i f k o hk]
    dsimp only [Option.bind_some]
    split <;> rfl

/-- The object whose `attrs` an operation asks for. -/
def touched : Op ρ δ V → Option Nat
  | .touch i => some i
  | .attr i _ _ => some i
  | .select i names => if names = [] then none else some i
  | _ => none

/-- What `attrs` of an object is after an operation. -/
def attrsAfter (w : World ρ δ V) (k : Nat) : Op ρ δ V → List (String × V)
  | .attr i key v => if k = i ∨ shares w i k then put key v (w.attrsOf k) else w.attrsOf k
  | _ => w.attrsOf k

theorem attrs_keep (w w' : World ρ δ V) (hr : Refs w) (k : Nat) (h : ref w' k = ref w k) (hd : ∀ (r : Nat), r < w.dicts.length → w'.dicts[r]? = w.dicts[r]?) : w'.attrsOf k = w.attrsOf k := by
  rw [attrsOf_ref, attrsOf_ref, h]
  cases hk : ref w k with
  | none => rfl
  | some r => show (w'.dicts[r]?).getD [] = (w.dicts[r]?).getD []; rw [hd r (hr k r hk)]

/-- The three facts about one operation. -/
structure Effect (w w' : World ρ δ V) (op : Op ρ δ V) : Prop where
  refs : Refs w'
  old : ∃ fresh, w.dicts.length ≤ fresh ∧ ∀ k, k < w.objs.length → ref w' k = if touched op = some k then some ((ref w k).getD fresh) else ref w k
  value : ∀ k, k < w.objs.length → w'.attrsOf k = attrsAfter w k op

theorem effect_keep (w w' : World ρ δ V) (op : Op ρ δ V) (ht : touched op = none) (hv : ∀ k, attrsAfter w k op = w.attrsOf k) (hr : Refs w) (hr' : Refs w')
    (h : ∀ k, k < w.objs.length → ref w' k = ref w k) (hd : ∀ (r : Nat), r < w.dicts.length → w'.dicts[r]? = w.dicts[r]?) : Effect w w' op :=
  ⟨hr', ⟨w.dicts.length, Nat.le_refl _, fun k hk => by rw [ht, h k hk]; simp⟩, fun k hk => by rw [hv]; exact attrs_keep w w' hr k (h k hk) hd⟩

theorem refs_add (w : World ρ δ V) (hr : Refs w) (o : Obj ρ δ) (ds : List (List (String × V))) (hl : w.dicts.length ≤ ds.length) (ho : ∀ r, o.attrs = some r → r < ds.length) :
    Refs (({ w with dicts := ds } : World ρ δ V).add o).1 := by
  intro k r h
  rw [ref_add] at h
  show r < ds.length
  split at h
  · exact ho r h
  · exact Nat.lt_of_lt_of_le (hr k r h) hl

theorem old_add (w : World ρ δ V) (o : Obj ρ δ) (k : Nat) (hk : k < w.objs.length) : ref (w.add o).1 k = ref w k := by
  rw [ref_add, if_neg (by omega)]

theorem effect_slice (w : World ρ δ V) (hr : Refs w) (i : Nat) (ix : Index) (p : World ρ δ V × Nat) (h : slice w i ix = .ok p) (op : Op ρ δ V) (ht : touched op = none)
    (hv : ∀ k, attrsAfter w k op = w.attrsOf k) : Effect w p.1 op := by
  obtain ⟨o, ho, ⟨_, rfl⟩ | ⟨_, n, cols, l, _, _, _, _, _, rfl⟩⟩ := slice_shape w i ix p h
  · exact effect_keep w w op ht hv hr hr (fun _ _ => rfl) fun _ _ => rfl
  · have hro : ref w i = o.attrs := by unfold ref; rw [ho]; rfl
    exact effect_keep w _ op ht hv hr (refs_add w hr _ w.dicts (Nat.le_refl _) fun r h => hr i r (hro.trans h)) (fun k hk => old_add w _ k hk) fun _ _ => rfl

theorem exec_attrs (plain : Cls ρ δ) (w w' : World ρ δ V) (hr : Refs w) (op : Op ρ δ V) (h : exec plain w op = .ok w') : Effect w w' op := by
  cases op with
  | newBuf l =>
    cases h
    exact effect_keep w _ _ rfl (fun _ => rfl) hr hr (fun _ _ => rfl) fun _ _ => rfl
  | poke b l =>
    unfold exec at h
    dsimp only at h
    cases hb : w.bufs[b]? with
    | none => rw [hb] at h; cases h
    | some x =>
      rw [hb] at h
      dsimp only at h
      split at h
      · cases h
        exact effect_keep w _ _ rfl (fun _ => rfl) hr hr (fun _ _ => rfl) fun _ _ => rfl
      · cases h
  | new cls data size =>
    cases h
    exact effect_keep w _ _ rfl (fun _ => rfl) hr (refs_add w hr _ w.dicts (Nat.le_refl _) fun r h => by cases h) (fun k hk => old_add w _ k hk) fun _ _ => rfl
  | view i ty =>
    unfold exec view at h
    dsimp only at h
    cases ho : w.objs[i]? with
    | none => rw [ho] at h; cases h
    | some o =>
      rw [ho] at h
      cases h
      have hro : ref w i = o.attrs := by unfold ref; rw [ho]; rfl
      exact effect_keep w _ _ rfl (fun _ => rfl) hr (refs_add w hr _ w.dicts (Nat.le_refl _) fun r h => hr i r (hro.trans h)) (fun k hk => old_add w _ k hk) fun _ _ => rfl
  | copy i =>
    unfold exec at h
    dsimp only at h
    cases hc : copy w i with
    | error e => rw [hc] at h; cases h
    | ok p =>
      rw [hc] at h
      cases h
      obtain ⟨o, cols, r, _, _, _, _, rfl⟩ := copy_shape w i p hc
      refine effect_keep w _ _ rfl (fun _ => rfl) hr (refs_add w hr _ _ (by simp) fun r h => ?_) (fun k hk => old_add { w with dicts := _ } _ k hk) fun r hr2 => ?_
      · cases h; simp
      · exact List.getElem?_append_left hr2
  | slice i ix =>
    unfold exec at h
    dsimp only at h
    cases hc : slice w i ix with
    | error e => rw [hc] at h; cases h
    | ok p =>
      rw [hc] at h
      cases h
      exact effect_slice w hr i ix p hc _ rfl fun _ => rfl
  | select i names =>
    unfold exec at h
    dsimp only at h
    cases hc : select plain w i names with
    | error e => rw [hc] at h; cases h
    | ok p =>
      rw [hc] at h
      cases h
      by_cases hne : names = []
      · have hs : slice w i (.ints []) = .ok p := by
          unfold select at hc
          cases ho : w.objs[i]? with
          | none => rw [ho] at hc; cases hc
          | some o => rw [ho] at hc; dsimp only at hc; rw [if_pos hne] at hc; exact hc
        exact effect_slice w hr i _ p hs _ (by unfold touched; dsimp only; rw [if_pos hne]) fun _ => rfl
      · obtain ⟨o, cols, ho, _, _, _, _, hp⟩ := select_shape plain w i names p hc hne
        have hi := (List.getElem?_eq_some_iff.mp ho).1
        generalize hnew : (⟨plain, o.data, w.size i, w.size i, (cols.map fun q => (q.1, q.2.1)).foldl (fun l p => put p.1 p.2 l) [], none, some w.dicts.length⟩ : Obj ρ δ) = new at hp
        generalize hw1 : (({ w with dicts := w.dicts ++ [[]] } : World ρ δ V).add new).1 = w1 at hp
        dsimp only at hp
        have hl1 : w1.dicts = w.dicts ++ [[]] := by rw [← hw1]; rfl
        have hr1 : Refs w1 := by
          rw [← hw1]
          exact refs_add w hr _ _ (by simp) fun r h => by rw [← hnew] at h; cases h; simp
        have hi1 : i < w1.objs.length := by rw [← hw1]; show i < (w.objs ++ [new]).length; simp; omega
        have ho1 : ∀ k, k < w.objs.length → ref w1 k = ref w k := fun k hk => by rw [← hw1]; exact old_add { w with dicts := _ } _ k hk
        obtain ⟨t1, t2, t3⟩ := ref_touch w1 i hi1
        have hlen : w1.dicts.length ≤ (w1.touch i).1.dicts.length := (touch_bufs w1 i).2.2
        have hrt : Refs (w1.touch i).1 := by
          intro k r h
          rw [t2] at h
          rw [t3]
          split at h
          · cases h
            cases hri : ref w1 i with
            | none => simp
            | some r => rw [if_neg (by simp)]; exact hr1 i r hri
          · exact Nat.lt_of_lt_of_le (hr1 k r h) (by split <;> simp)
        have hold : ∀ (r : Nat), r < w.dicts.length → (w1.touch i).1.dicts[r]? = w.dicts[r]? := by
          intro r hr2
          rw [t3, hl1]
          split
          · rw [List.getElem?_append_left (by simp; omega), List.getElem?_append_left hr2]
          · rw [List.getElem?_append_left hr2]
        subst hp
        dsimp only
        have hv : ∀ k, k < w.objs.length → ref (w1.touch i).1 k = if k = i then some ((ref w i).getD w1.dicts.length) else ref w k := by
          intro k hk
          rw [t2, ho1 k hk, ho1 i hi]
        refine ⟨fun k r h => ?_, ⟨w1.dicts.length, by rw [hl1]; simp, fun k hk => ?_⟩, fun k hk => ?_⟩
        · show r < ((w1.touch i).1.dicts.set _ _).length
          rw [List.length_set]
          exact hrt k r h
        · show ref (w1.touch i).1 k = _
          rw [hv k hk]
          have ht : touched (.select i names : Op ρ δ V) = some i := by unfold touched; dsimp only; rw [if_neg hne]
          by_cases hki : k = i
          · rw [if_pos hki, if_pos (by rw [hki]; exact ht), hki]
          · rw [if_neg hki, if_neg (fun e => hki (Option.some.inj (ht.symm.trans e)).symm)]
        · show _ = w.attrsOf k
          rw [attrsOf_ref, attrsOf_ref]
          show ((ref (w1.touch i).1 k).bind fun r => ((w1.touch i).1.dicts.set w.dicts.length _)[r]?).getD [] = _
          rw [hv k hk]
          have hset : ∀ (r : Nat) x, r < w.dicts.length → ((w1.touch i).1.dicts.set w.dicts.length x)[r]? = w.dicts[r]? := by
            intro r x hr2
            rw [List.getElem?_set_ne (by omega), hold r hr2]
          by_cases hki : k = i
          · subst hki
            rw [if_pos rfl]
            cases hri : ref w k with
            | some r =>
              show (((w1.touch k).1.dicts.set w.dicts.length _)[r]?).getD [] = _
              rw [hset r _ (hr k r hri)]
              rfl
            | none =>
              show (((w1.touch k).1.dicts.set w.dicts.length _)[w1.dicts.length]?).getD [] = []
              rw [List.getElem?_set_ne (by rw [hl1]; simp), t3, if_pos ((ho1 k hk).trans hri), List.getElem?_append_right (Nat.le_refl _), Nat.sub_self]
              rfl
          · rw [if_neg hki]
            cases hri : ref w k with
            | none => rfl
            | some r =>
              show (((w1.touch i).1.dicts.set w.dicts.length _)[r]?).getD [] = _
              rw [hset r _ (hr k r hri)]
              rfl
  | set i c v =>
    obtain ⟨x, _, _, _, rfl⟩ := setCol_shape w i c v w' h
    exact effect_keep w _ _ rfl (fun _ => rfl) hr (fun k r h => by rw [ref_setOver] at h; rw [(setOver_rest w _ _).2.1]; exact hr k r h) (fun k _ => ref_setOver w _ _ k)
      fun r _ => by rw [(setOver_rest w _ _).2.1]
  | del i c =>
    obtain ⟨x, _, _, _, rfl⟩ := delCol_shape w i c w' h
    exact effect_keep w _ _ rfl (fun _ => rfl) hr (fun k r h => by rw [ref_setOver] at h; rw [(setOver_rest w _ _).2.1]; exact hr k r h) (fun k _ => ref_setOver w _ _ k)
      fun r _ => by rw [(setOver_rest w _ _).2.1]
  | touch i =>
    unfold exec at h
    dsimp only at h
    split at h
    · rename_i hi
      cases h
      obtain ⟨t1, t2, t3⟩ := ref_touch w i hi
      refine ⟨fun k r h => ?_, ⟨w.dicts.length, Nat.le_refl _, fun k hk => ?_⟩, fun k hk => ?_⟩
      · rw [t2] at h
        rw [t3]
        split at h
        · cases h
          cases hri : ref w i with
          | none => simp
          | some r => rw [if_neg (by simp)]; exact hr i r hri
        · exact Nat.lt_of_lt_of_le (hr k r h) (by split <;> simp)
      · rw [t2]
        unfold touched
        by_cases hki : k = i
        · rw [if_pos hki, if_pos (by rw [hki]), hki]
        · rw [if_neg hki, if_neg (fun e => hki (Option.some.inj e).symm)]
      · show _ = w.attrsOf k
        rw [attrsOf_ref, attrsOf_ref, t2, t3]
        by_cases hki : k = i
        · subst hki
          rw [if_pos rfl]
          cases hri : ref w k with
          | some r => rfl
          | none => simp
        · rw [if_neg hki]
          cases hrk : ref w k with
          | none => rfl
          | some r =>
            dsimp only [Option.bind_some]
            split
            · rw [List.getElem?_append_left (hr k r hrk)]
            · rfl
    · cases h
  | attr i key v =>
    unfold exec at h
    dsimp only at h
    split at h
    · rename_i hi
      cases h
      obtain ⟨t1, t2, t3⟩ := ref_touch w i hi
      have hrt : Refs (w.touch i).1 := by
        intro k r h
        rw [t2] at h
        rw [t3]
        split at h
        · cases h
          cases hri : ref w i with
          | none => simp
          | some r => rw [if_neg (by simp)]; exact hr i r hri
        · exact Nat.lt_of_lt_of_le (hr k r h) (by split <;> simp)
      refine ⟨fun k r h => ?_, ⟨w.dicts.length, Nat.le_refl _, fun k hk => ?_⟩, fun k hk => ?_⟩
      · show r < ((w.touch i).1.dicts.set _ _).length
        rw [List.length_set]
        exact hrt k r h
      · show ref (w.touch i).1 k = _
        rw [t2]
        unfold touched
        by_cases hki : k = i
        · rw [if_pos hki, if_pos (by rw [hki]), hki]
        · rw [if_neg hki, if_neg (fun e => hki (Option.some.inj e).symm)]
      · show _ = if k = i ∨ shares w i k then put key v (w.attrsOf k) else w.attrsOf k
        rw [attrsOf_ref, attrsOf_ref]
        show ((ref (w.touch i).1 k).bind fun r => ((w.touch i).1.dicts.set (w.touch i).2 _)[r]?).getD [] = _
        rw [t2, t1, t3]
        cases hri : ref w i with
        | some r =>
          dsimp only [Option.getD_some]
          rw [if_neg (show ¬ (some r = none) by intro e; cases e)]
          by_cases hki : k = i
          · subst hki
            rw [if_pos rfl, if_pos (Or.inl rfl)]
            dsimp only [Option.bind_some]
            rw [List.getElem?_set_self (hr k r hri), hri]
            rfl
          · rw [if_neg hki]
            cases hrk : ref w k with
            | none =>
              rw [if_neg]
              · rfl
              · rintro (e | e)
                · exact hki e
                · unfold shares at e; rw [hri, hrk] at e; cases e
            | some s =>
              dsimp only [Option.bind_some]
              by_cases hrs : r = s
              · subst hrs
                rw [if_pos (Or.inr (by unfold shares; rw [hri, hrk]; simp)), List.getElem?_set_self (hr i r hri)]
                rfl
              · rw [if_neg, List.getElem?_set_ne hrs]
                rintro (e | e)
                · exact hki e
                · unfold shares at e; rw [hri, hrk] at e; exact hrs (by simpa using e)
        | none =>
          rw [if_pos rfl]
          dsimp only [Option.getD_none]
          by_cases hki : k = i
          · subst hki
            rw [if_pos rfl, if_pos (Or.inl rfl)]
            dsimp only [Option.bind_some]
            rw [List.getElem?_set_self (by simp), hri]
            simp
          · rw [if_neg hki, if_neg]
            · cases hrk : ref w k with
              | none => rfl
              | some s =>
                dsimp only [Option.bind_some]
                have := hr k s hrk
                rw [List.getElem?_set_ne (by omega), List.getElem?_append_left this]
            · rintro (e | e)
              · exact hki e
              · unfold shares at e; rw [hri] at e; cases e
    · cases h

theorem refs_empty : Refs (⟨[], [], []⟩ : World ρ δ V) := fun k r h => by unfold ref at h; simp at h

/-- C128: what one operation, successful or not, does to the attributes of the objects that exist: the only change is the new entry, and it is seen by the object itself and by those
that share its dictionary. -/
theorem attrs_step (plain : Cls ρ δ) (w : World ρ δ V) (hr : Refs w) (op : Op ρ δ V) (k : Nat) (hk : k < w.objs.length) :
    (step plain w op).attrsOf k = match op with
      | .attr i key v => if i < w.objs.length ∧ (k = i ∨ shares w i k) then put key v (w.attrsOf k) else w.attrsOf k
      | _ => w.attrsOf k := by
  unfold step
  cases hx : exec plain w op with
  | ok w' =>
    dsimp only
    rw [(exec_attrs plain w w' hr op hx).value k hk]
    cases op <;> try rfl
    rename_i i key v
    unfold attrsAfter
    dsimp only
    have hi : i < w.objs.length := by
      by_contra hc
      unfold exec at hx
      dsimp only at hx
      rw [if_neg hc] at hx
      cases hx
    simp only [hi, true_and]
  | error e =>
    dsimp only
    cases op <;> try rfl
    rename_i i key v
    dsimp only
    rw [if_neg]
    rintro ⟨hi, _⟩
    unfold exec at hx
    dsimp only at hx
    rw [if_pos hi] at hx
    cases hx

theorem refs_step (plain : Cls ρ δ) (w : World ρ δ V) (hr : Refs w) (op : Op ρ δ V) : Refs (step plain w op) := by
  unfold step
  cases hx : exec plain w op with
  | ok w' => exact (exec_attrs plain w w' hr op hx).refs
  | error e => exact hr

theorem refs_run (plain : Cls ρ δ) : ∀ (ops : List (Op ρ δ V)) (w : World ρ δ V), Refs w → Refs (run plain w ops)
  | [], _, h => h
  | op :: ops, w, h => refs_run plain ops _ (refs_step plain w h op)

/-- One operation neither joins nor separates the dictionaries of two objects. -/
theorem shares_step (plain : Cls ρ δ) (w : World ρ δ V) (hr : Refs w) (op : Op ρ δ V) (i j : Nat) (hi : i < w.objs.length) (hj : j < w.objs.length) (hij : i ≠ j) :
    shares (step plain w op) i j = shares w i j := by
  unfold step
  cases hx : exec plain w op with
  | error e => rfl
  | ok w' =>
    dsimp only
    obtain ⟨f, hf, h⟩ := (exec_attrs plain w w' hr op hx).old
    rw [Bool.eq_iff_iff, shares_iff, shares_iff, h i hi, h j hj]
    by_cases h1 : touched op = some i
    · have h2 : touched op ≠ some j := fun e => hij (Option.some.inj (h1.symm.trans e))
      rw [if_pos h1, if_neg h2]
      cases hri : ref w i with
      | some r => rfl
      | none =>
        constructor
        · rintro ⟨r, e1, e2⟩
          cases e1
          exact absurd (hr j _ e2) (by show ¬ f < _; omega)
        · rintro ⟨r, e1, _⟩; cases e1
    · rw [if_neg h1]
      by_cases h2 : touched op = some j
      · rw [if_pos h2]
        cases hrj : ref w j with
        | some r => rfl
        | none =>
          constructor
          · rintro ⟨r, e1, e2⟩
            cases e2
            exact absurd (hr i _ e1) (by show ¬ f < _; omega)
          · rintro ⟨r, _, e1⟩; cases e1
      · rw [if_neg h2]

/-- C128: whether two catalogs share their attributes is settled when the later one is made: no program changes it. -/
theorem shares_run (plain : Cls ρ δ) (i j : Nat) (hij : i ≠ j) : ∀ (ops : List (Op ρ δ V)) (w : World ρ δ V), Refs w → i < w.objs.length → j < w.objs.length →
    shares (run plain w ops) i j = shares w i j
  | [], _, _, _, _ => rfl
  | op :: ops, w, hr, hi, hj => by
    have hl := length_step plain w op
    show shares (run plain (step plain w op) ops) i j = _
    rw [shares_run plain i j hij ops _ (refs_step plain w hr op) (by omega) (by omega), shares_step plain w hr op i j hi hj hij]

/-- The entry that one operation makes in the attributes of one object. -/
def entry (k : Nat) (w : World ρ δ V) : Op ρ δ V → List (String × V)
  | .attr i key v => if i < w.objs.length ∧ (k = i ∨ shares w i k) then [(key, v)] else []
  | _ => []

/-- The entries that a program makes in the attributes of one object, in order: through the object itself or through one that shares its dictionary at that moment. -/
def entries (plain : Cls ρ δ) (k : Nat) : World ρ δ V → List (Op ρ δ V) → List (String × V)
  | _, [] => []
  | w, op :: ops => entry k w op ++ entries plain k (step plain w op) ops

/-- C128: the attributes of a catalog after any program: the ones before, with the entries made through it and through those that share its dictionary. -/
theorem attrs_run (plain : Cls ρ δ) (k : Nat) : ∀ (ops : List (Op ρ δ V)) (w : World ρ δ V), Refs w → k < w.objs.length →
    (run plain w ops).attrsOf k = (entries plain k w ops).foldl (fun d p => put p.1 p.2 d) (w.attrsOf k)
  | [], _, _, _ => rfl
  | op :: ops, w, hr, hk => by
    have hl := length_step plain w op
    show (run plain (step plain w op) ops).attrsOf k = _
    rw [attrs_run plain k ops _ (refs_step plain w hr op) (by omega)]
    have e : entries plain k w (op :: ops) = entry k w op ++ entries plain k (step plain w op) ops := rfl
    rw [e, List.foldl_append]
    congr 1
    rw [attrs_step plain w hr op k hk]
    cases op <;> try rfl
    rename_i i key v
    dsimp only
    unfold entry
    dsimp only
    split <;> rfl

/-- C128: two catalogs that share a dictionary show the same attributes after every program. -/
theorem attrs_together (plain : Cls ρ δ) (i j : Nat) (hij : i ≠ j) (ops : List (Op ρ δ V)) (w : World ρ δ V) (hr : Refs w) (h : shares w i j) :
    (run plain w ops).attrsOf i = (run plain w ops).attrsOf j := by
  obtain ⟨r, h1, h2⟩ := (shares_iff _ i j).mp h
  have := shares_run plain i j hij ops w hr (ref_lt w i r h1) (ref_lt w j r h2)
  rw [h] at this
  obtain ⟨s, e1, e2⟩ := (shares_iff _ i j).mp this
  rw [attrsOf_ref, attrsOf_ref, e1, e2]

/-- C128: a new view, slice, copy or selection shares the dictionary of an older object in the following cases only. -/
theorem shares_new (plain : Cls ρ δ) (w w' : World ρ δ V) (hr : Refs w) (op : Op ρ δ V) (h : exec plain w op = .ok w') (hn : w'.objs.length = w.objs.length + 1) (k : Nat)
    (hk : k < w.objs.length) :
    shares w' w.objs.length k = match op with
      | .view i _ => (ref w i).isSome && (k == i || shares w i k)
      | .slice i _ => (ref w i).isSome && (k == i || shares w i k)
      | .select i names => decide (names = []) && ((ref w i).isSome && (k == i || shares w i k))
      | _ => false := by
  have key : ∀ (o : Obj ρ δ) (i : Nat), o.attrs = ref w i → shares (w.add o).1 w.objs.length k = ((ref w i).isSome && (k == i || shares w i k)) := by
    intro o i ho
    unfold shares
    rw [ref_add, ref_add, if_pos rfl, if_neg (by omega), ho]
    cases hri : ref w i with
    | none => rfl
    | some r =>
      by_cases hki : k = i
      · subst hki; rw [hri]; simp
      · have : (k == i) = false := by simpa using hki
        rw [this]
        cases hrk : ref w k with
        | none => rfl
        | some s => dsimp only [Option.isSome]; simp
  have hsl : ∀ i ix (p : World ρ δ V × Nat), slice w i ix = .ok p → p.1.objs.length = w.objs.length + 1 → shares p.1 w.objs.length k = ((ref w i).isSome && (k == i || shares w i k)) := by
    intro i ix p hs hl
    obtain ⟨o, ho, ⟨_, rfl⟩ | ⟨_, n, cols, l, _, _, _, _, _, rfl⟩⟩ := slice_shape w i ix p hs
    · dsimp only at hl; omega
    · exact key _ i (by unfold ref; rw [ho]; rfl)
  cases op with
  | newBuf l => cases h; dsimp only at hn; omega
  | poke b l =>
    exfalso
    unfold exec at h
    dsimp only at h
    cases hb : w.bufs[b]? with
    | none => rw [hb] at h; cases h
    | some x =>
      rw [hb] at h
      dsimp only at h
      split at h
      · cases h; dsimp only at hn; omega
      · cases h
  | new cls data size =>
    cases h
    unfold shares
    rw [ref_add, if_pos rfl]
  | view i ty =>
    unfold exec view at h
    dsimp only at h
    cases ho : w.objs[i]? with
    | none => rw [ho] at h; cases h
    | some o =>
      rw [ho] at h
      cases h
      exact key _ i (by unfold ref; rw [ho]; rfl)
  | copy i =>
    unfold exec at h
    dsimp only at h
    cases hc : copy w i with
    | error e => rw [hc] at h; cases h
    | ok p =>
      rw [hc] at h
      cases h
      obtain ⟨o, cols, r, _, _, _, _, rfl⟩ := copy_shape w i p hc
      dsimp only
      rw [← Bool.not_eq_true, shares_iff]
      rintro ⟨s, e1, e2⟩
      rw [ref_add] at e1 e2
      dsimp only at e1 e2
      rw [if_pos rfl] at e1
      rw [if_neg (by omega)] at e2
      cases e1
      exact absurd (hr k _ e2) (Nat.lt_irrefl _)
  | slice i ix =>
    unfold exec at h
    dsimp only at h
    cases hc : slice w i ix with
    | error e => rw [hc] at h; cases h
    | ok p => rw [hc] at h; cases h; exact hsl i ix p hc hn
  | select i names =>
    have hE := exec_attrs plain w w' hr _ h
    unfold exec at h
    dsimp only at h
    cases hc : select plain w i names with
    | error e => rw [hc] at h; cases h
    | ok p =>
      rw [hc] at h
      cases h
      dsimp only
      by_cases hne : names = []
      · have hs : slice w i (.ints []) = .ok p := by
          unfold select at hc
          cases ho : w.objs[i]? with
          | none => rw [ho] at hc; cases hc
          | some o => rw [ho] at hc; dsimp only at hc; rw [if_pos hne] at hc; exact hc
        rw [hsl i _ p hs hn]
        simp [hne]
      · rw [decide_eq_false hne, Bool.false_and, ← Bool.not_eq_true, shares_iff]
        rintro ⟨s, e1, e2⟩
        obtain ⟨o, cols, ho, _, _, _, _, hp⟩ := select_shape plain w i names p hc hne
        have hi := (List.getElem?_eq_some_iff.mp ho).1
        generalize hnew : (⟨plain, o.data, w.size i, w.size i, (cols.map fun q => (q.1, q.2.1)).foldl (fun l p => put p.1 p.2 l) [], none, some w.dicts.length⟩ : Obj ρ δ) = new at hp
        generalize hw1 : (({ w with dicts := w.dicts ++ [[]] } : World ρ δ V).add new).1 = w1 at hp
        dsimp only at hp
        have hi1 : i < w1.objs.length := by rw [← hw1]; show i < (w.objs ++ [new]).length; simp; omega
        have hl1 : w1.dicts.length = w.dicts.length + 1 := by rw [← hw1]; show (w.dicts ++ [[]]).length = _; simp
        obtain ⟨t1, t2, t3⟩ := ref_touch w1 i hi1
        subst hp
        change ref (w1.touch i).1 w.objs.length = some s at e1
        change ref (w1.touch i).1 k = some s at e2
        have hnewref : ref w1 w.objs.length = some w.dicts.length := by
          rw [← hw1, ref_add]
          dsimp only
          rw [if_pos rfl, ← hnew]
        have hold : ∀ m, m < w.objs.length → ref w1 m = ref w m := fun m hm => by rw [← hw1]; exact old_add { w with dicts := _ } _ m hm
        rw [t2, if_neg (by omega), hnewref] at e1
        cases e1
        rw [t2] at e2
        split at e2
        · rw [hold i hi] at e2
          cases hri : ref w i with
          | none => rw [hri] at e2; dsimp only [Option.getD_none] at e2; rw [hl1] at e2; have := Option.some.inj e2; omega
          | some r => rw [hri] at e2; have := Option.some.inj e2; have h3 := hr i r hri; dsimp only [Option.getD_some] at this; omega
        · rw [hold k hk] at e2
          exact absurd (hr k _ e2) (Nat.lt_irrefl _)
  | set i c v =>
    exfalso
    obtain ⟨x, _, _, _, rfl⟩ := setCol_shape w i c v w' h
    rw [(setOver_rest w _ _).2.2] at hn
    omega
  | del i c =>
    exfalso
    obtain ⟨x, _, _, _, rfl⟩ := delCol_shape w i c w' h
    rw [(setOver_rest w _ _).2.2] at hn
    omega
  | touch i =>
    exfalso
    unfold exec at h
    dsimp only at h
    split at h
    · cases h; rw [(touch_bufs w i).2.1] at hn; omega
    · cases h
  | attr i key v =>
    exfalso
    unfold exec at h
    dsimp only at h
    split at h
    · cases h; dsimp only at hn; rw [(touch_bufs w i).2.1] at hn; omega
    · cases h

end NBK.CatObj
