import Verif.Fiber.Lemmas

/-! Lemmas on the distribution of the groups over ranks (helpers only). -/
set_option linter.unusedSimpArgs false
namespace NBK.Fiber
open NBK.Comm
variable {α : Type} [LinearOrder α]

/-- What the assignment of a group guarantees, on global indices. -/
structure GroupOk (dist : Nat → Nat → α) (R : α) (index : List Nat) (col : Nat → Bool) (nb : Nat → Int) : Prop where
  free : ∀ i ∈ index, ∀ j ∈ index, i ≠ j → col i = false → col j = false → ¬ dist i j ≤ R
  nearest : ∀ i ∈ index, col i = true → ∃ j ∈ index, nb i = (j : Int) ∧ col j = false ∧
    ∀ k ∈ index, col k = false → dist i j ≤ dist i k
  clean : ∀ i ∈ index, col i = false → nb i = -1
  pair : ∀ a b, a ≠ b → (∀ i, i ∈ index ↔ i = a ∨ i = b) → col a = !col b

theorem groupRes_ok (dist : Nat → Nat → α) (R : α) (which : Bool) (pick : Nat → List Nat → Nat) (hp : IsPick pick)
    (index : List Nat) (hn : index.Nodup) (h2 : 2 ≤ index.length) :
    ∃ (col : Nat → Bool) (nb : Nat → Int), GroupOk dist R index col nb ∧
      ∀ old, groupRes dist R which pick index old = .ok (index.map fun i => (some (col i), some (nb i))) := by
  match index, h2 with
  | [i, j], _ =>
    have hij : i ≠ j := by simpa using hn
    cases which with
    | true =>
      refine ⟨fun k => decide (k = j), fun k => if k = j then (i : Int) else -1, ⟨?_, ?_, ?_, ?_⟩, ?_⟩
      · intro a ha b hb hab h1 h2
        simp at ha hb h1 h2
        rcases ha with rfl | rfl <;> rcases hb with rfl | rfl <;> simp_all
      · intro a ha h1
        have : a = j := by simpa using h1
        subst this
        refine ⟨i, by simp, by simp, by simpa using hij, ?_⟩
        intro k hk h2
        simp at hk h2
        rcases hk with rfl | rfl
        · exact le_refl _
        · exact absurd rfl h2
      · intro a _ h1
        have : a ≠ j := by simpa using h1
        simp [this]
      · intro a b hab hm
        have h1 := (hm i).mp (by simp)
        have h2 := (hm j).mp (by simp)
        rcases h1 with rfl | rfl <;> rcases h2 with rfl | rfl <;> simp_all
      · intro old
        simp [groupRes, hij]
    | false =>
      refine ⟨fun k => decide (k = i), fun k => if k = i then (j : Int) else -1, ⟨?_, ?_, ?_, ?_⟩, ?_⟩
      · intro a ha b hb hab h1 h2
        simp at ha hb h1 h2
        rcases ha with rfl | rfl <;> rcases hb with rfl | rfl <;> simp_all
      · intro a ha h1
        have : a = i := by simpa using h1
        subst this
        refine ⟨j, by simp, by simp, by simpa using hij.symm, ?_⟩
        intro k hk h2
        simp at hk h2
        rcases hk with rfl | rfl
        · exact absurd rfl h2
        · exact le_refl _
      · intro a _ h1
        have : a ≠ i := by simpa using h1
        simp [this]
      · intro a b hab hm
        have h1 := (hm i).mp (by simp)
        have h2 := (hm j).mp (by simp)
        rcases h1 with rfl | rfl <;> rcases h2 with rfl | rfl <;> simp_all [eq_comm]
      · intro old
        simp [groupRes, hij.symm]
  | a :: b :: c :: l, _ =>
    obtain ⟨index, hidx⟩ : ∃ index, index = a :: b :: c :: l := ⟨_, rfl⟩
    have hl : index.length > 2 := by rw [hidx]; simp
    have hpos : 0 < index.length := by omega
    obtain ⟨t, nbr, h1, h2, h3, h4, h5, -, -⟩ := assignMultiplets_spec (fun a b => dist (index.getD a 0) (index.getD b 0)) R pick hp index.length hpos
    have hgr : ∀ old, groupRes dist R which pick index old =
        multipletRes index ((List.range index.length).map fun i => decide (i ∈ t)) (((List.range index.length).filter fun i => decide (i ∈ t)).map nbr) := by
      intro old
      have : groupRes dist R which pick index old = if index.length > 2 then
          match assignMultiplets (fun a b => dist (index.getD a 0) (index.getD b 0)) R pick index.length with
          | .error e => .error e
          | .ok (collided, nearest) => multipletRes index collided nearest
        else .ok old := by rw [hidx]; rfl
      rw [this, if_pos hl, h1]
    rw [← hidx] at hn
    rw [← hidx]
    have hget : ∀ i ∈ index, index.idxOf i < index.length ∧ index.getD (index.idxOf i) 0 = i := by
      intro i hi
      have hlt := List.idxOf_lt_length_of_mem hi
      refine ⟨hlt, ?_⟩
      rw [List.getD_eq_getElem?_getD, List.getElem?_eq_getElem hlt, Option.getD_some, List.getElem_idxOf]
    have hidxof : ∀ (k : Nat) (hk : k < index.length), index.idxOf index[k] = k := fun k hk => hn.idxOf_getElem k hk
    refine ⟨fun i => decide (index.idxOf i ∈ t), fun i => if index.idxOf i ∈ t then (index.getD (nbr (index.idxOf i)) 0 : Int) else -1, ⟨?_, ?_, ?_, ?_⟩, ?_⟩
    · intro i hi j hj hij hci hcj
      obtain ⟨l1, g1⟩ := hget i hi
      obtain ⟨l2, g2⟩ := hget j hj
      have := h2 _ l1 (by simpa using hci) _ l2 (by simpa using hcj) (fun e => hij (by rw [← g1, ← g2, e]))
      rwa [g1, g2] at this
    · intro i hi hci
      have hci' : index.idxOf i ∈ t := by simpa using hci
      obtain ⟨l1, g1⟩ := hget i hi
      obtain ⟨n1, n2, n3⟩ := h3 _ l1 hci'
      have e : index.getD (nbr (index.idxOf i)) 0 = index[nbr (index.idxOf i)] := by
        rw [List.getD_eq_getElem?_getD, List.getElem?_eq_getElem n1, Option.getD_some]
      refine ⟨index[nbr (index.idxOf i)], List.getElem_mem n1, ?_, ?_, ?_⟩
      · rw [if_pos hci', e]
      · rw [hidxof _ n1]; simpa using n2
      · intro k hk hck
        obtain ⟨l2, g2⟩ := hget k hk
        have := n3 _ l2 (by simpa using hck)
        rwa [g1, g2, e] at this
    · intro i _ hci
      have hci' : index.idxOf i ∉ t := by simpa using hci
      rw [if_neg hci']
    · intro x y hxy hm
      have hsub : index ⊆ [x, y] := by
        intro i hi; simpa using (hm i).mp hi
      have := (List.subperm_of_subset hn hsub).length_le
      simp at this
      omega
    · intro old
      rw [hgr old]
      unfold multipletRes
      rw [List.length_map, List.length_range]
      rw [mapM_ok _ (fun a => (some (decide (a ∈ t)), some (if a ∈ t then (index.getD (nbr a) 0 : Int) else -1)))]
      · congr 1
        apply List.ext_getElem
        · simp
        · intro k k1 k2
          have hk : k < index.length := by simpa using k1
          simp [hidxof k hk]
      · intro k hk
        have hk : k < index.length := by simpa using hk
        have e1 : ((List.range index.length).map fun i => decide (i ∈ t)).getD k false = decide (k ∈ t) := by
          rw [List.getD_eq_getElem?_getD, List.getElem?_map, List.getElem?_range hk]; rfl
        rw [e1]
        by_cases hkt : k ∈ t
        · rw [if_pos (by simpa using hkt), List.getElem?_map,
            filter_range_getElem (fun i => decide (i ∈ t)) index.length k hk (by simpa using hkt), Option.map_some]
          obtain ⟨n1, -, -⟩ := h3 k hk hkt
          dsimp only
          rw [List.getElem?_eq_getElem n1]
          simp [hkt, n1]
        · rw [if_neg (by simpa using hkt)]
          simp [hkt]

theorem takeWhile_all {β : Type} (p : β → Bool) (A B : List β) (hA : ∀ x ∈ A, p x = true) : (A ++ B).takeWhile p = A ++ B.takeWhile p := by
  induction A with
  | nil => rfl
  | cons a A ih =>
    rw [List.cons_append, List.takeWhile_cons, if_pos (hA a (by simp)), ih fun x hx => hA x (by simp [hx])]; rfl

theorem takeWhile_none {β : Type} (p : β → Bool) (B : List β) (hB : ∀ x ∈ B, p x = false) : B.takeWhile p = [] := by
  cases B with
  | nil => rfl
  | cons b B => rw [List.takeWhile_cons, if_neg (by simp [hB b (by simp)])]

/-- Rows sorted by label, all labels at least `u`: first those of label `u`, then the larger ones. -/
theorem sorted_split (u : Nat) (rest : List (Nat × Nat)) (hs : rest.Pairwise fun a b => a.2 ≤ b.2) (hu : ∀ p ∈ rest, u ≤ p.2) :
    rest = (rest.filter fun p => p.2 = u) ++ rest.filter fun p => u < p.2 := by
  induction rest with
  | nil => rfl
  | cons a rest ih =>
    rw [List.pairwise_cons] at hs
    have ha := hu a (by simp)
    by_cases e : a.2 = u
    · rw [List.filter_cons, if_pos (by simpa using e), List.filter_cons, if_neg (by simp; omega), List.cons_append,
        ← ih hs.2 fun p hp => hu p (by simp [hp])]
    · have h1 : ∀ p ∈ a :: rest, u < p.2 := by
        intro p hp
        rcases List.mem_cons.mp hp with rfl | hp
        · omega
        · have := hs.1 p hp; omega
      have e1 : (a :: rest).filter (fun p => decide (p.2 = u)) = [] := by
        rw [List.filter_eq_nil_iff]; intro p hp; have := h1 p hp; simp; omega
      have e2 : (a :: rest).filter (fun p => decide (u < p.2)) = a :: rest := by
        rw [List.filter_eq_self]; intro p hp; simpa using h1 p hp
      rw [e1, e2]; rfl

theorem foldlM_groups (dist : Nat → Nat → α) (R : α) (which : Nat → Bool) (pick : Nat → Nat → List Nat → Nat) (rows : List (Nat × Nat))
    (F : Nat → Nat → Res)
    (hF : ∀ g ∈ rows.map Prod.snd, ∀ old, groupRes dist R (which g) (pick g) ((rows.filter fun p => p.2 = g).map Prod.fst) old =
      .ok (((rows.filter fun p => p.2 = g).map Prod.fst).map (F g)))
    (us : List Nat) (hus : us.Pairwise (· < ·)) (A rest : List (Nat × Nat)) (hr : rows = A ++ rest)
    (hA : ∀ p ∈ A, ∀ u ∈ us, p.2 < u) (hs : rest.Pairwise fun a b => a.2 ≤ b.2) (hrest : ∀ p ∈ rest, p.2 ∈ us)
    (hmem : ∀ u ∈ us, u ∈ rest.map Prod.snd) :
    us.foldlM (groupStep dist R which pick rows) ((A.map fun p => F p.2 p.1) ++ List.replicate rest.length (none, none)) =
      .ok (rows.map fun p => F p.2 p.1) := by
  induction us generalizing A rest with
  | nil =>
    have : rest = [] := by
      cases rest with
      | nil => rfl
      | cons a l => exact absurd (hrest a (by simp)) (by simp)
    subst this
    simp [hr, pure, Except.pure]
  | cons u us ih =>
    rw [List.pairwise_cons] at hus
    have hge : ∀ p ∈ rest, u ≤ p.2 := by
      intro p hp
      rcases List.mem_cons.mp (hrest p hp) with e | e
      · omega
      · have := hus.1 _ e; omega
    have hsp := sorted_split u rest hs hge
    obtain ⟨S, hS⟩ : ∃ S, S = rest.filter fun p => decide (p.2 = u) := ⟨_, rfl⟩
    obtain ⟨B, hB⟩ : ∃ B, B = rest.filter fun p => decide (u < p.2) := ⟨_, rfl⟩
    rw [← hS, ← hB] at hsp
    have hSu : ∀ p ∈ S, p.2 = u := by intro p hp; rw [hS] at hp; simpa using (List.mem_filter.mp hp).2
    have hBu : ∀ p ∈ B, u < p.2 := by intro p hp; rw [hB] at hp; simpa using (List.mem_filter.mp hp).2
    have hAu : ∀ p ∈ A, p.2 < u := fun p hp => hA p hp u (by simp)
    have hslice : rows.filter (fun p => decide (p.2 = u)) = S := by
      rw [hr, List.filter_append, ← hS, List.filter_eq_nil_iff.mpr, List.nil_append]
      intro p hp; have := hAu p hp; simp; omega
    have hst : (rows.takeWhile fun p => decide (p.2 < u)) = A := by
      rw [hr, takeWhile_all _ A rest (fun p hp => by simpa using hAu p hp), takeWhile_none, List.append_nil]
      intro p hp; have := hge p hp; simp; omega
    have hsto : (rows.takeWhile fun p => decide (p.2 ≤ u)) = A ++ S := by
      rw [hr, hsp, ← List.append_assoc, takeWhile_all _ (A ++ S) B, takeWhile_none, List.append_nil]
      · intro p hp; have := hBu p hp; simp; omega
      · intro p hp
        rcases List.mem_append.mp hp with h | h
        · have := hAu p h; simp; omega
        · have := hSu p h; simp; omega
    rw [List.foldlM_cons]
    have hstep : groupStep dist R which pick rows ((A.map fun p => F p.2 p.1) ++ List.replicate rest.length (none, none)) u =
        .ok (((A ++ S).map fun p => F p.2 p.1) ++ List.replicate B.length (none, none)) := by
      unfold groupStep
      dsimp only
      rw [hst, hsto]
      have e1 : ((rows.drop A.length).take ((A ++ S).length - A.length)) = S := by
        rw [hr, hsp, List.drop_left, List.length_append, Nat.add_sub_cancel_left, List.take_left]
      have hu : u ∈ rows.map Prod.snd := by
        rw [hr, List.map_append, List.mem_append]; exact Or.inr (hmem u (by simp))
      have hFu := hF u hu
      rw [hslice] at hFu
      rw [e1, hFu]
      simp only [bind, Except.bind, pure, Except.pure]
      congr 1
      have e2 : rest.length = S.length + B.length := by rw [hsp, List.length_append]
      rw [List.take_left' (by simp), e2, List.replicate_add, ← List.append_assoc, List.drop_left' (by simp), List.map_append]
      congr 2
      rw [List.map_map]
      apply List.map_congr_left
      intro p hp
      simp [hSu p hp]
    rw [hstep]
    refine ih hus.2 (A ++ S) B (by rw [hr, hsp, List.append_assoc]) ?_ ?_ ?_ ?_
    · intro p hp v hv
      have := hus.1 v hv
      rcases List.mem_append.mp hp with h | h
      · have := hAu p h; omega
      · have := hSu p h; omega
    · rw [hB]; exact hs.filter _
    · intro p hp
      have h1 := hBu p hp
      have h2 := hrest p (by rw [hB] at hp; exact (List.mem_filter.mp hp).1)
      rcases List.mem_cons.mp h2 with e | e
      · omega
      · exact e
    · intro v hv
      have h1 := hus.1 v hv
      obtain ⟨p, hp, rfl⟩ := List.mem_map.mp (hmem v (by simp [hv]))
      exact List.mem_map.mpr ⟨p, by rw [hB]; exact List.mem_filter.mpr ⟨hp, by simpa using h1⟩, rfl⟩

theorem rankRes_ok (dist : Nat → Nat → α) (R : α) (which : Nat → Bool) (pick : Nat → Nat → List Nat → Nat) (rows : List (Nat × Nat))
    (F : Nat → Nat → Res) (hs : rows.Pairwise fun a b => a.2 ≤ b.2)
    (hF : ∀ g ∈ rows.map Prod.snd, ∀ old, groupRes dist R (which g) (pick g) ((rows.filter fun p => p.2 = g).map Prod.fst) old =
      .ok (((rows.filter fun p => p.2 = g).map Prod.fst).map (F g))) :
    rankRes dist R which pick rows = .ok (rows.map fun p => F p.2 p.1) := by
  unfold rankRes
  have hsort := List.pairwise_mergeSort (le := fun a b : Nat => decide (a ≤ b)) (by intro a b c; simp; omega) (by intro a b; simp; omega)
    (rows.map Prod.snd)
  have hd := eraseDups_pairwise _ hsort
  have hmem : ∀ u, u ∈ ((rows.map Prod.snd).mergeSort fun a b => decide (a ≤ b)).eraseDups ↔ u ∈ rows.map Prod.snd := by
    intro u; rw [List.mem_eraseDups, (List.mergeSort_perm _ _).mem_iff]
  exact foldlM_groups dist R which pick rows F hF _
    (hd.imp fun ⟨h1, h2⟩ => by have := of_decide_eq_true h1; exact Nat.lt_of_le_of_ne this h2) [] rows rfl (by simp) hs
    (fun p hp => (hmem _).mpr (List.mem_map_of_mem hp)) (fun u hu => (hmem u).mp hu)

theorem place_ok (F : Nat → Nat → Res) (l : List Nat) (o : Nat) :
    place l (((l.mapIdx fun i x => (o + i, x)).filter fun p => decide (p.2 ≠ 0)).map fun p => F p.2 p.1) =
      .ok (l.mapIdx fun i x => if x = 0 then (some false, some (-1)) else F x (o + i)) := by
  induction l generalizing o with
  | nil => rfl
  | cons a l ih =>
    have h := ih (o + 1)
    have e1 : (l.mapIdx fun i x => (o + (i + 1), x)) = l.mapIdx fun i x => (o + 1 + i, x) := by
      congr 1; funext i x; rw [Nat.add_assoc, Nat.add_comm 1 i]
    have e2 : (l.mapIdx fun i x => if x = 0 then (some false, some (-1)) else F x (o + (i + 1))) =
        l.mapIdx fun i x => if x = 0 then (some false, some (-1)) else F x (o + 1 + i) := by
      congr 1; funext i x; rw [Nat.add_assoc, Nat.add_comm 1 i]
    rw [List.mapIdx_cons, List.mapIdx_cons, e1, e2]
    cases a with
    | zero =>
      rw [List.filter_cons, if_neg (by simp)]
      unfold place
      rw [h]; rfl
    | succ a =>
      rw [List.filter_cons, if_pos (by simp), List.map_cons]
      unfold place
      rw [h]; simp

theorem pig_getElem (labels : List (List Nat)) (r : Nat) (l : List Nat) (h : labels[r]? = some l) :
    (pig labels)[r]? = some ((l.mapIdx fun i x => (((labels.map List.length).take r).sum + i, x)).filter fun p => decide (p.2 ≠ 0)) := by
  unfold pig
  rw [List.getElem?_mapIdx, h]; rfl

theorem pig_flatten (labels : List (List Nat)) :
    (pig labels).flatten = ((labels.flatten.mapIdx fun i x => (i, x)).filter fun p => decide (p.2 ≠ 0)) := by
  have key : ∀ (ls : List (List Nat)) (o : Nat),
      (ls.mapIdx fun r l => (l.mapIdx fun i x => (o + ((ls.map List.length).take r).sum + i, x)).filter fun p => decide (p.2 ≠ 0)).flatten =
        ((ls.flatten.mapIdx fun i x => (o + i, x)).filter fun p => decide (p.2 ≠ 0)) := by
    intro ls
    induction ls with
    | nil => intro o; rfl
    | cons l ls ih =>
      intro o
      have h := ih (o + l.length)
      rw [List.mapIdx_cons, List.flatten_cons, List.flatten_cons, List.mapIdx_append, List.filter_append]
      congr 1
      have e1 : (l.mapIdx fun i x => (o + 0 + i, x)) = (l.mapIdx fun i x => (o + i, x)) := rfl
      have e2 : (ls.flatten.mapIdx fun i x => (o + (i + l.length), x)) = ls.flatten.mapIdx fun i x => (o + l.length + i, x) := by
        congr 1; funext i x; rw [Nat.add_assoc, Nat.add_comm l.length i]
      rw [e2, ← h]
      congr 1
      congr 1
      funext r l'
      simp only [List.map_cons, List.take_succ_cons, List.sum_cons, Nat.add_assoc]
  have := key labels 0
  simp only [Nat.zero_add] at this
  exact this

end NBK.Fiber
