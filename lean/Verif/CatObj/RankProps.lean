import Verif.CatObj.AttrProps

/-! # `CatalogSource` objects on many ranks -/
set_option linter.unusedSimpArgs false
namespace NBK.CatObj
open NBK.Slicing (Index)

variable {ρ δ V : Type}

/-- The same line of the program: the same operation on the same object, with arguments that may differ between the ranks. -/
def kind : Op ρ δ V → Nat × Nat
  | .newBuf _ => (0, 0)
  | .poke _ _ => (0, 0)
  | .new _ _ _ => (1, 0)
  | .view i _ => (2, i)
  | .copy i => (3, i)
  | .slice i ix => if ix = .ellipsis then (0, 0) else (4, i)
  | .select i _ => (4, i)
  | .set _ _ _ => (0, 0)
  | .del _ _ => (0, 0)
  | .touch _ => (0, 0)
  | .attr _ _ _ => (0, 0)

def trip (o : Obj ρ δ) : Option Nat × Nat × Nat := (o.base, o.size, o.csize)

def table (w : World ρ δ V) : List (Option Nat × Nat × Nat) := w.objs.map trip

theorem table_owner (w w' : World ρ δ V) (h : w'.objs.map Obj.base = w.objs.map Obj.base) (i : Nat) (hi : i < w.objs.length) : owner w'.objs i = owner w.objs i := by
  refine chain_same (fun k o hk => ?_) i hi
  have hl : w'.objs.length = w.objs.length := by simpa using congrArg List.length h
  have hk' := (List.getElem?_eq_some_iff.mp hk).1
  refine ⟨w'.objs[k]'(by omega), List.getElem?_eq_getElem (by omega), ?_⟩
  have := congrArg (fun l => l[k]?) h
  beta_reduce at this
  rw [List.getElem?_map, List.getElem?_map, hk, List.getElem?_eq_getElem (by omega)] at this
  exact Option.some.inj this

theorem table_same (w w' : World ρ δ V) (hl : w'.objs.length = w.objs.length) (h : ∀ (k : Nat) (o : Obj ρ δ), w.objs[k]? = some o → ∃ o', w'.objs[k]? = some o' ∧ Same o o') :
    table w' = table w := by
  refine List.ext_getElem? fun k => ?_
  unfold table
  rw [List.getElem?_map, List.getElem?_map]
  cases hk : w.objs[k]? with
  | none =>
    have : ¬ k < w'.objs.length := by
      rw [hl]
      intro h
      rw [List.getElem?_eq_getElem h] at hk
      cases hk
    rw [List.getElem?_eq_none (Nat.le_of_not_lt this)]
  | some o =>
    obtain ⟨o', e, h1, h2, h3, h4, h5⟩ := h k o hk
    rw [e]
    show some (trip o') = some (trip o)
    unfold trip
    rw [h5, h3, h4]

/-- The row of the new object. -/
def Row (w : World ρ δ V) (op : Op ρ δ V) (t : Option Nat × Nat × Nat) : Prop :=
  match kind op with
  | (2, i) => i < w.objs.length ∧ t = (some i, w.size i, w.csize i)
  | (3, i) => i < w.objs.length ∧ t = (none, w.size i, w.csize i)
  | _ => ∃ n, t = (none, n, n)

theorem exec_table (plain : Cls ρ δ) (w w' : World ρ δ V) (op : Op ρ δ V) (h : exec plain w op = .ok w') :
    if kind op = (0, 0) then table w' = table w else ∃ t, table w' = table w ++ [t] ∧ Row w op t := by
  have he := (exec_effect plain w w' op h).2.2
  have keep : w'.objs.length = w.objs.length → table w' = table w := fun hl => table_same w w' hl fun k o hk => (he k o hk).imp fun o' x => ⟨x.1, x.2.1⟩
  have hadd : ∀ (w1 : World ρ δ V) (o : Obj ρ δ), table (w1.add o).1 = table w1 ++ [trip o] := fun w1 o => by
    show (w1.objs ++ [o]).map trip = _
    rw [List.map_append]
    rfl
  have hsl : ∀ i ix (p : World ρ δ V × Nat), ix ≠ .ellipsis → slice w i ix = .ok p → ∃ n, table p.1 = table w ++ [(none, n, n)] := by
    intro i ix p hne hs
    obtain ⟨o, ho, ⟨e, _⟩ | ⟨_, n, cols, l, _, _, _, _, _, rfl⟩⟩ := slice_shape w i ix p hs
    · exact absurd e hne
    · exact ⟨n, hadd _ _⟩
  cases op with
  | newBuf l => rw [if_pos (by rfl)]; cases h; rfl
  | poke b l =>
    rw [if_pos (by rfl)]
    unfold exec at h
    dsimp only at h
    cases hb : w.bufs[b]? with
    | none => rw [hb] at h; cases h
    | some x =>
      rw [hb] at h
      dsimp only at h
      split at h
      · cases h; rfl
      · cases h
  | new cls data size =>
    rw [if_neg (by simp [kind])]
    cases h
    exact ⟨_, hadd w _, size, rfl⟩
  | view i ty =>
    rw [if_neg (by simp [kind])]
    unfold exec view at h
    dsimp only at h
    cases ho : w.objs[i]? with
    | none => rw [ho] at h; cases h
    | some o =>
      rw [ho] at h
      cases h
      exact ⟨_, hadd w _, (List.getElem?_eq_some_iff.mp ho).1, rfl⟩
  | copy i =>
    rw [if_neg (by simp [kind])]
    unfold exec at h
    dsimp only at h
    cases hc : copy w i with
    | error e => rw [hc] at h; cases h
    | ok p =>
      rw [hc] at h
      cases h
      obtain ⟨o, cols, r, ho, _, _, _, rfl⟩ := copy_shape w i p hc
      exact ⟨_, hadd { w with dicts := _ } _, (List.getElem?_eq_some_iff.mp ho).1, rfl⟩
  | slice i ix =>
    unfold exec at h
    dsimp only at h
    cases hc : slice w i ix with
    | error e => rw [hc] at h; cases h
    | ok p =>
      rw [hc] at h
      cases h
      by_cases hne : ix = .ellipsis
      · rw [if_pos (by simp [kind, hne])]
        subst hne
        have hi : i < w.objs.length := by
          obtain ⟨o, ho, _⟩ := slice_shape w i _ p hc
          exact (List.getElem?_eq_some_iff.mp ho).1
        rw [slice_ellipsis w i hi] at hc
        cases hc
        rfl
      · have hk : kind (.slice i ix : Op ρ δ V) = (4, i) := by simp [kind, hne]
        rw [if_neg (by rw [hk]; simp)]
        obtain ⟨n, hn⟩ := hsl i ix p hne hc
        exact ⟨_, hn, by unfold Row; rw [hk]; exact ⟨n, rfl⟩⟩
  | select i names =>
    rw [if_neg (by simp [kind])]
    unfold exec at h
    dsimp only at h
    cases hc : select plain w i names with
    | error e => rw [hc] at h; cases h
    | ok p =>
      rw [hc] at h
      cases h
      by_cases hne : names = []
      · have hs : slice w i (.ints []) = .ok p := by
          unfold select at hc
          cases ho : w.objs[i]? with
          | none => rw [ho] at hc; cases hc
          | some o => rw [ho] at hc; dsimp only at hc; rw [if_pos hne] at hc; exact hc
        obtain ⟨n, hn⟩ := hsl i _ p (by intro e; cases e) hs
        exact ⟨_, hn, n, rfl⟩
      · obtain ⟨o, cols, ho, _, _, _, _, hp⟩ := select_shape plain w i names p hc hne
        dsimp only at hp
        generalize hw1 : (({ w with dicts := w.dicts ++ [[]] } : World ρ δ V).add _).1 = w1 at hp
        refine ⟨(none, w.size i, w.size i), ?_, w.size i, rfl⟩
        rw [hp]
        show table (w1.touch i).1 = _
        rw [table_same w1 _ (touch_bufs w1 i).2.1 fun k o hk => (touch_old w1 i k o hk).imp fun o' x => ⟨x.1, x.2.1⟩, ← hw1]
        exact hadd { w with dicts := _ } _
  | set i c v =>
    rw [if_pos (by rfl)]
    obtain ⟨x, _, _, _, rfl⟩ := setCol_shape w i c v w' h
    exact keep (setOver_rest w _ _).2.2
  | del i c =>
    rw [if_pos (by rfl)]
    obtain ⟨x, _, _, _, rfl⟩ := delCol_shape w i c w' h
    exact keep (setOver_rest w _ _).2.2
  | touch i =>
    rw [if_pos (by rfl)]
    unfold exec at h
    dsimp only at h
    split at h
    · cases h; exact keep (touch_bufs w i).2.1
    · cases h
  | attr i key v =>
    rw [if_pos (by rfl)]
    unfold exec at h
    dsimp only at h
    split at h
    · cases h; exact keep (touch_bufs w i).2.1
    · cases h

/-- The ranks have the same objects, and every stored `_csize` is the sum of the stored `_size`s. -/
structure Ranks (ws : List (World ρ δ V)) : Prop where
  bases : ∃ B, ∀ w ∈ ws, w.objs.map Obj.base = B
  sums : ∀ w ∈ ws, ∀ (k : Nat) (o : Obj ρ δ), w.objs[k]? = some o → o.csize = (ws.map fun v => ((v.objs[k]?).map Obj.size).getD 0).sum

theorem ranks_csize {ws : List (World ρ δ V)} (hr : Ranks ws) (w : World ρ δ V) (hw : w ∈ ws) (i : Nat) (hi : i < w.objs.length) : w.csize i = (ws.map fun v => v.size i).sum := by
  obtain ⟨B, hB⟩ := hr.bases
  obtain ⟨o, ho⟩ := own_some w i hi
  unfold World.csize
  rw [ho]
  show o.csize = _
  rw [hr.sums w hw _ o ho]
  congr 1
  refine List.map_congr_left fun v hv => ?_
  unfold World.size World.own
  rw [table_owner w v (by rw [hB v hv, hB w hw]) i hi]

theorem table_bases (w w' : World ρ δ V) (h : table w' = table w) : w'.objs.map Obj.base = w.objs.map Obj.base := by
  have := congrArg (List.map Prod.fst) h
  unfold table at this
  rwa [List.map_map, List.map_map] at this

theorem table_get (w : World ρ δ V) (k : Nat) : (table w)[k]? = (w.objs[k]?).map trip := by unfold table; rw [List.getElem?_map]

theorem ranks_table (ws ws' : List (World ρ δ V)) (h : ws'.map table = ws.map table) (hr : Ranks ws) : Ranks ws' := by
  have hmem : ∀ w' ∈ ws', ∃ w ∈ ws, table w' = table w := by
    intro w' hw'
    have : table w' ∈ ws.map table := by rw [← h]; exact List.mem_map.mpr ⟨w', hw', rfl⟩
    obtain ⟨w, hw, e⟩ := List.mem_map.mp this
    exact ⟨w, hw, e.symm⟩
  have hsum : ∀ (k : Nat), (ws'.map fun v => ((v.objs[k]?).map Obj.size).getD 0) = ws.map fun v => ((v.objs[k]?).map Obj.size).getD 0 := by
    intro k
    have := congrArg (List.map fun t : List (Option Nat × Nat × Nat) => ((t[k]?).map fun x => x.2.1).getD 0) h
    rw [List.map_map, List.map_map] at this
    have e : ((fun t : List (Option Nat × Nat × Nat) => ((t[k]?).map fun x => x.2.1).getD 0) ∘ (table : World ρ δ V → _)) = fun v => ((v.objs[k]?).map Obj.size).getD 0 := by
      funext v
      show (((table v)[k]?).map fun x => x.2.1).getD 0 = _
      rw [table_get, Option.map_map]
      rfl
    rwa [e] at this
  refine ⟨?_, ?_⟩
  · obtain ⟨B, hB⟩ := hr.bases
    refine ⟨B, fun w' hw' => ?_⟩
    obtain ⟨w, hw, e⟩ := hmem w' hw'
    rw [table_bases w w' e, hB w hw]
  · intro w' hw' k o ho
    obtain ⟨w, hw, e⟩ := hmem w' hw'
    rw [hsum k]
    have e2 := congrArg (fun t => t[k]?) e
    beta_reduce at e2
    rw [table_get, table_get, ho] at e2
    cases hk : w.objs[k]? with
    | none => rw [hk] at e2; cases e2
    | some p =>
      rw [hk] at e2
      have e3 : trip o = trip p := Option.some.inj e2
      rw [← hr.sums w hw k p hk]
      exact congrArg (fun t => t.2.2) e3

theorem step_table_keep (plain : Cls ρ δ) (w : World ρ δ V) (op : Op ρ δ V) (h : kind op = (0, 0)) : table (step plain w op) = table w := by
  unfold step
  cases hx : exec plain w op with
  | error e => rfl
  | ok w' =>
    have := exec_table plain w w' op hx
    rw [if_pos h] at this
    exact this

theorem creates_kind (op : Op ρ δ V) (h : creates op = false) : kind op = (0, 0) := by
  cases op <;> first | rfl | cases h

theorem collective_kind (op : Op ρ δ V) : collective op = true ↔ (kind op).1 = 1 ∨ (kind op).1 = 4 := by
  cases op <;> try (simp [kind, collective]; done)
  rename_i i ix
  unfold kind collective
  dsimp only
  by_cases h : ix = .ellipsis <;> simp [h]

theorem setCsize_table (w : World ρ δ V) (t : List (Option Nat × Nat × Nat)) (b : Option Nat) (s c n : Nat) (h : table w = t ++ [(b, s, c)]) :
    table (setCsize n w) = t ++ [(b, s, n)] ∧ lastSize w = s := by
  have hne : w.objs ≠ [] := by rintro e; unfold table at h; rw [e] at h; simp at h
  obtain ⟨l, o, e⟩ : ∃ l o, w.objs = l ++ [o] := ⟨w.objs.dropLast, w.objs.getLast hne, (List.dropLast_append_getLast hne).symm⟩
  have hlast : w.objs.getLast? = some o := by rw [e]; simp
  unfold table at h ⊢
  unfold setCsize lastSize
  rw [hlast]
  dsimp only
  rw [e, List.map_append] at h
  obtain ⟨h1, h2⟩ := List.append_inj' h rfl
  have h3 : trip o = (b, s, c) := by simpa using h2
  refine ⟨?_, congrArg (fun t => t.2.1) h3⟩
  rw [e]
  have : (l ++ [o]).set ((l ++ [o]).length - 1) { o with csize := n } = l ++ [{ o with csize := n }] := by
    rw [List.set_append_right _ _ (by simp)]
    simp
  rw [this, List.map_append, h1]
  congr 1
  show [(o.base, o.size, n)] = _
  rw [show o.base = b from congrArg Prod.fst h3, show o.size = s from congrArg (fun t => t.2.1) h3]

/-- A new row on every rank, all with the same base. -/
theorem ranks_append (l : List (World ρ δ V × World ρ δ V)) (b : Option Nat) (sz : World ρ δ V × World ρ δ V → Nat)
    (h : ∀ p ∈ l, table p.2 = table p.1 ++ [(b, sz p, (l.map sz).sum)]) (hr : Ranks (l.map Prod.fst)) : Ranks (l.map Prod.snd) := by
  obtain ⟨B, hB⟩ := hr.bases
  have hlen : ∀ p ∈ l, p.1.objs.length = B.length := fun p hp => by rw [← hB p.1 (List.mem_map.mpr ⟨p, hp, rfl⟩)]; simp
  have hget : ∀ p ∈ l, ∀ (k : Nat), (p.2.objs[k]?).map trip = if k = B.length then some (b, sz p, (l.map sz).sum) else (p.1.objs[k]?).map trip := by
    intro p hp k
    rw [← table_get, h p hp, ← table_get]
    have hl : (table p.1).length = B.length := by unfold table; rw [List.length_map, hlen p hp]
    by_cases hk : k = B.length
    · rw [if_pos hk, hk, ← hl, List.getElem?_append_right (Nat.le_refl _), Nat.sub_self]; rfl
    · rw [if_neg hk]
      by_cases h2 : k < B.length
      · rw [List.getElem?_append_left (by omega)]
      · rw [List.getElem?_eq_none (by simp; omega), List.getElem?_eq_none (by omega)]
  have hsize : ∀ p ∈ l, ∀ (k : Nat), ((p.2.objs[k]?).map Obj.size).getD 0 = if k = B.length then sz p else ((p.1.objs[k]?).map Obj.size).getD 0 := by
    intro p hp k
    have := congrArg (fun o : Option (Option Nat × Nat × Nat) => (o.map fun t => t.2.1).getD 0) (hget p hp k)
    beta_reduce at this
    rw [Option.map_map] at this
    have e : ((fun t : Option Nat × Nat × Nat => t.2.1) ∘ (trip : Obj ρ δ → _)) = Obj.size := rfl
    rw [e] at this
    rw [this]
    split
    · rfl
    · rw [Option.map_map]; rfl
  refine ⟨⟨B ++ [b], ?_⟩, ?_⟩
  · intro w' hw'
    obtain ⟨p, hp, rfl⟩ := List.mem_map.mp hw'
    have := congrArg (List.map Prod.fst) (h p hp)
    rw [List.map_append] at this
    unfold table at this
    rw [List.map_map, List.map_map] at this
    have hb : p.1.objs.map (Prod.fst ∘ trip) = B := hB p.1 (List.mem_map.mpr ⟨p, hp, rfl⟩)
    rw [hb] at this
    exact this
  · intro w' hw' k o ho
    obtain ⟨p, hp, rfl⟩ := List.mem_map.mp hw'
    rw [List.map_map]
    have hs : (l.map ((fun v : World ρ δ V => ((v.objs[k]?).map Obj.size).getD 0) ∘ Prod.snd)) = l.map fun q => if k = B.length then sz q else ((q.1.objs[k]?).map Obj.size).getD 0 :=
      List.map_congr_left fun q hq => hsize q hq k
    rw [hs]
    have hg := hget p hp k
    rw [ho] at hg
    by_cases hk : k = B.length
    · simp only [if_pos hk] at hg ⊢
      exact congrArg (fun t => t.2.2) (Option.some.inj hg)
    · simp only [if_neg hk] at hg ⊢
      cases hq : p.1.objs[k]? with
      | none => rw [hq] at hg; cases hg
      | some q =>
        rw [hq] at hg
        have e3 : trip o = trip q := Option.some.inj hg
        have := hr.sums p.1 (List.mem_map.mpr ⟨p, hp, rfl⟩) k q hq
        rw [List.map_map] at this
        exact (congrArg (fun t => t.2.2) e3).trans this

/-- One line of the program, on ranks whose sums are right. -/
theorem ranks_joint (plain : Cls ρ δ) (l : List (World ρ δ V × Op ρ δ V)) (K : Nat × Nat) (hK : ∀ p ∈ l, kind p.2 = K) (hr : Ranks (l.map Prod.fst)) (ws' : List (World ρ δ V))
    (h : joint plain l = .ok ws') : Ranks ws' := by
  unfold joint at h
  dsimp only at h
  split at h
  · rename_i hgood
    have hok : ∀ p ∈ l, ∃ w', exec plain p.1 p.2 = .ok w' := by
      intro p hp
      rw [List.all_eq_true] at hgood
      have := hgood _ (List.mem_map.mpr ⟨p, hp, rfl⟩)
      cases hx : exec plain p.1 p.2 with
      | ok w' => exact ⟨w', rfl⟩
      | error e => rw [hx] at this; cases this
    have hstep : ∀ p ∈ l, exec plain p.1 p.2 = .ok (step plain p.1 p.2) := by
      intro p hp
      obtain ⟨w', e⟩ := hok p hp
      unfold step
      rw [e]
    by_cases hK0 : K = (0, 0)
    · have hc : (l.any fun p => collective p.2) = false := by
        rw [List.any_eq_false]
        intro p hp hcon
        rw [collective_kind, hK p hp, hK0] at hcon
        simp at hcon
      rw [hc] at h
      cases h
      refine ranks_table (l.map Prod.fst) _ ?_ hr
      show (l.map _).map table = (l.map Prod.fst).map table
      rw [List.map_map, List.map_map]
      exact List.map_congr_left fun p hp => step_table_keep plain p.1 p.2 ((hK p hp).trans hK0)
    · have hrow : ∀ p ∈ l, ∃ t, table (step plain p.1 p.2) = table p.1 ++ [t] ∧ Row p.1 p.2 t := by
        intro p hp
        have := exec_table plain p.1 _ p.2 (hstep p hp)
        rw [if_neg (by rw [hK p hp]; exact hK0)] at this
        exact this
      by_cases hcoll : K.1 = 1 ∨ K.1 = 4
      · cases l with
        | nil =>
          cases h
          exact ⟨⟨[], fun w hw => by cases hw⟩, fun w hw => by cases hw⟩
        | cons q l =>
          have hc : ((q :: l).any fun p => collective p.2) = true := by
            rw [List.any_eq_true]
            exact ⟨q, List.mem_cons_self, (collective_kind q.2).mpr (by rw [hK q List.mem_cons_self]; exact hcoll)⟩
          rw [hc] at h
          cases h
          generalize hL : q :: l = L at *
          have hrow' : ∀ p ∈ L, ∃ n, table (step plain p.1 p.2) = table p.1 ++ [(none, n, n)] := by
            intro p hp
            obtain ⟨t, ht, hrw⟩ := hrow p hp
            unfold Row at hrw
            rw [hK p hp] at hrw
            obtain ⟨k1, k2⟩ := K
            dsimp only at hcoll
            rcases hcoll with e | e
            · subst e; obtain ⟨n, rfl⟩ := hrw; exact ⟨n, ht⟩
            · subst e; obtain ⟨n, rfl⟩ := hrw; exact ⟨n, ht⟩
          let N := ((L.map fun p => step plain p.1 p.2).map lastSize).sum
          have := ranks_append (L.map fun p => (p.1, setCsize N (step plain p.1 p.2))) none (fun x => lastSize x.2) ?_ ?_
          · rw [List.map_map] at this
            rw [if_pos rfl, List.map_map]
            exact this
          · intro x hx
            obtain ⟨p, hp, rfl⟩ := List.mem_map.mp hx
            obtain ⟨n, hn⟩ := hrow' p hp
            obtain ⟨a1, a2⟩ := setCsize_table (step plain p.1 p.2) _ none n n N hn
            obtain ⟨_, a3⟩ := setCsize_table (setCsize N (step plain p.1 p.2)) _ none n N N a1
            dsimp only
            rw [a1, a3]
            have : (L.map fun p => (p.1, setCsize N (step plain p.1 p.2))).map (fun x => lastSize x.2) = (L.map fun p => step plain p.1 p.2).map lastSize := by
              rw [List.map_map, List.map_map]
              refine List.map_congr_left fun r hr' => ?_
              obtain ⟨m, hm⟩ := hrow' r hr'
              obtain ⟨b1, b2⟩ := setCsize_table (step plain r.1 r.2) _ none m m N hm
              obtain ⟨_, b3⟩ := setCsize_table (setCsize N (step plain r.1 r.2)) _ none m N N b1
              show lastSize (setCsize N (step plain r.1 r.2)) = lastSize (step plain r.1 r.2)
              rw [b2, b3]
            rw [this]
          · rw [List.map_map]
            exact hr
      · have hc : (l.any fun p => collective p.2) = false := by
          rw [List.any_eq_false]
          intro p hp hcon
          rw [collective_kind, hK p hp] at hcon
          exact hcoll hcon
        rw [hc] at h
        cases h
        have hrow' : ∀ p ∈ l, K.2 < p.1.objs.length ∧ table (step plain p.1 p.2) = table p.1 ++ [((if K.1 = 2 then some K.2 else none), p.1.size K.2, p.1.csize K.2)] := by
          intro p hp
          have hk := hK p hp
          obtain ⟨t, ht, hrw⟩ := hrow p hp
          unfold Row at hrw
          rw [hk] at hrw
          have hK4 : K.1 = 2 ∨ K.1 = 3 := by
            have : (kind p.2).1 = 0 ∧ (kind p.2).2 = 0 ∨ (kind p.2).1 = 1 ∨ (kind p.2).1 = 2 ∨ (kind p.2).1 = 3 ∨ (kind p.2).1 = 4 := by
              cases p.2 <;> simp [kind]
              split <;> simp
            rw [hk] at this
            rcases this with ⟨e1, e2⟩ | e | e | e | e
            · exact absurd (Prod.ext e1 e2) hK0
            · exact absurd (Or.inl e) hcoll
            · exact Or.inl e
            · exact Or.inr e
            · exact absurd (Or.inr e) hcoll
          obtain ⟨k1, k2⟩ := K
          dsimp only at hK4
          rcases hK4 with e | e
          · subst e
            obtain ⟨h1, rfl⟩ := hrw
            exact ⟨h1, ht⟩
          · subst e
            obtain ⟨h1, rfl⟩ := hrw
            exact ⟨h1, ht⟩
        have := ranks_append (l.map fun p => (p.1, step plain p.1 p.2)) (if K.1 = 2 then some K.2 else none) (fun x => x.1.size K.2) ?_ ?_
        · rw [List.map_map] at this
          exact this
        · intro x hx
          obtain ⟨p, hp, rfl⟩ := List.mem_map.mp hx
          obtain ⟨h1, h2⟩ := hrow' p hp
          dsimp only
          rw [h2, ranks_csize hr p.1 (List.mem_map.mpr ⟨p, hp, rfl⟩) K.2 h1, List.map_map, List.map_map]
          rfl
        · rw [List.map_map]
          exact hr
  · split at h
    · rename_i hnc
      cases h
      rw [List.all_eq_true] at hnc
      refine ranks_table (l.map Prod.fst) _ ?_ hr
      show (l.map _).map table = (l.map Prod.fst).map table
      rw [List.map_map, List.map_map]
      refine List.map_congr_left fun p hp => step_table_keep plain p.1 p.2 (creates_kind p.2 ?_)
      have := hnc p hp
      simpa using this
    · split at h
      · cases h
      · split at h <;> cases h

/-- C128: on all ranks `csize` is the sum of the `size`s of the ranks, for every catalog that any program makes and however it is made. -/
theorem csize_sum (plain : Cls ρ δ) : ∀ (prog : List (List (Op ρ δ V))) (ws ws' : List (World ρ δ V)), Ranks ws →
    (∀ ops ∈ prog, ops.length = ws.length ∧ ∃ K, ∀ op ∈ ops, kind op = K) → jointRun plain ws prog = .ok ws' →
    ∀ w ∈ ws', ∀ i, i < w.objs.length → w.csize i = (ws'.map fun v => v.size i).sum
  | [], ws, ws', hr, _, h, w, hw, i, hi => by
    cases h
    exact ranks_csize hr w hw i hi
  | ops :: prog, ws, ws', hr, hp, h, w, hw, i, hi => by
    have e : jointRun plain ws (ops :: prog) = match joint plain (ws.zip ops) with
      | .ok ws' => jointRun plain ws' prog
      | .raised => .raised
      | .stuck => .stuck
      | .diverged => .diverged := rfl
    rw [e] at h
    obtain ⟨hl, K, hK⟩ := hp ops List.mem_cons_self
    cases hj : joint plain (ws.zip ops) with
    | ok ws1 =>
      rw [hj] at h
      have hr1 := ranks_joint plain (ws.zip ops) K (fun p hp => hK p.2 (List.of_mem_zip hp).2) (by rw [List.map_fst_zip (by omega)]; exact hr) ws1 hj
      have hl1 : ws1.length = ws.length := by
        unfold joint at hj
        dsimp only at hj
        split at hj
        · cases hj; split <;> simp [hl]
        · split at hj
          · cases hj; simp [hl]
          · split at hj
            · cases hj
            · split at hj <;> cases hj
      exact csize_sum plain prog ws1 ws' hr1 (fun o ho => by rw [hl1]; exact hp o (List.mem_cons_of_mem _ ho)) h w hw i hi
    | raised => rw [hj] at h; cases h
    | stuck => rw [hj] at h; cases h
    | diverged => rw [hj] at h; cases h

theorem ranks_empty (n : Nat) : Ranks (List.replicate n (⟨[], [], []⟩ : World ρ δ V)) :=
  ⟨⟨[], fun w hw => by rw [(List.mem_replicate.mp hw).2]; rfl⟩, fun w hw k o ho => by rw [(List.mem_replicate.mp hw).2] at ho; simp at ho⟩

end NBK.CatObj
