import Verif.Cgm.Model
import Mathlib.Data.List.Nodup
import Mathlib.Tactic.Linarith

/-! Lemmas on the cylindrical grouping method (helpers only). -/
set_option linter.unusedSimpArgs false
namespace NBK.Cgm
open NBK.Comm

theorem mem_removePaired (rows : List (Nat × Nat)) (bad : List Nat) (p : Nat × Nat) :
    p ∈ removePaired rows bad ↔ p ∈ rows ∧ ∀ j, (p.1, j) ∈ rows → j ∉ bad := by
  unfold removePaired
  simp only [List.mem_filter, List.mem_map, decide_eq_true_eq]
  refine and_congr_right fun hp => ⟨fun h j hj hb => h ⟨(p.1, j), ⟨hj, hb⟩, rfl⟩, ?_⟩
  rintro h ⟨⟨a, b⟩, ⟨hab, hb⟩, rfl⟩
  exact h b hab hb

theorem groups_desc (rows : List (Nat × Nat)) (h : rows.Pairwise fun a b => b.1 ≤ a.1) :
    (groups rows).Pairwise fun a b => b.1 < a.1 := by
  unfold groups
  rw [List.pairwise_map]
  have h' : (rows.map Prod.fst).Pairwise (fun a b => b ≤ a) := by rw [List.pairwise_map]; exact h
  exact (eraseDups_pairwise _ h').imp fun ⟨h1, h2⟩ => by dsimp only; omega

theorem mem_groups (rows : List (Nat × Nat)) (g : Nat × List Nat) (hg : g ∈ groups rows) (j : Nat) : j ∈ g.2 ↔ (g.1, j) ∈ rows := by
  unfold groups at hg
  obtain ⟨k, -, rfl⟩ := List.mem_map.mp hg
  simp only [List.mem_map, List.mem_filter, decide_eq_true_eq]
  constructor
  · rintro ⟨⟨a, b⟩, ⟨h1, rfl⟩, rfl⟩; exact h1
  · intro h; exact ⟨(k, j), ⟨h, rfl⟩, rfl⟩

theorem key_groups (rows : List (Nat × Nat)) (k : Nat) : (∃ g ∈ groups rows, g.1 = k) ↔ ∃ j, (k, j) ∈ rows := by
  unfold groups
  simp only [List.mem_map, List.mem_eraseDups, exists_exists_and_eq_and]
  constructor
  · rintro ⟨⟨a, b⟩, h, rfl⟩; exact ⟨b, h⟩
  · rintro ⟨j, h⟩; exact ⟨(k, j), h, rfl⟩

theorem mem_pairs (rel : Nat → Nat → Bool) (own held : List Nat) (p : Nat × Nat) :
    p ∈ pairs rel own held ↔ p.1 ∈ own ∧ p.2 ∈ held ∧ rel p.1 p.2 = true := by
  obtain ⟨a, b⟩ := p
  simp only [pairs, List.mem_flatMap, List.mem_map, List.mem_filter, Prod.mk.injEq]
  constructor
  · rintro ⟨i, hi, j, ⟨hj, hr⟩, rfl, rfl⟩; exact ⟨hi, hj, hr⟩
  · rintro ⟨hi, hj, hr⟩; exact ⟨a, hi, b, ⟨hj, hr⟩, rfl, rfl⟩

/-- The greedy selection: an object is chosen iff no chosen object of higher priority is related. -/
def IsGreedy (rel : Nat → Nat → Bool) (n : Nat) (G : Nat → Bool) : Prop :=
  ∀ k < n, G k = true ↔ ∀ j < n, k < j → rel k j = true → G j = false

theorem exists_greedy (rel : Nat → Nat → Bool) (n : Nat) : ∃ G, IsGreedy rel n G := by
  have key : ∀ d ≤ n, ∃ G : Nat → Bool, ∀ k < n, n - d ≤ k → (G k = true ↔ ∀ j < n, k < j → rel k j = true → G j = false) := by
    intro d
    induction d with
    | zero => intro _; exact ⟨fun _ => true, fun k h1 h2 => by omega⟩
    | succ d ih =>
      intro hd
      obtain ⟨G, hG⟩ := ih (by omega)
      classical
      refine ⟨fun k => if k = n - (d + 1) then decide (∀ j < n, k < j → rel k j = true → G j = false) else G k, ?_⟩
      intro k hk hkd
      have hne : ∀ j, n - (d + 1) < j → j ≠ n - (d + 1) := fun j h => by omega
      by_cases e : k = n - (d + 1)
      · simp only [if_pos e, decide_eq_true_eq]
        constructor
        · intro h j hj hkj hr
          rw [if_neg (hne j (by omega))]; exact h j hj hkj hr
        · intro h j hj hkj hr
          have := h j hj hkj hr
          rwa [if_neg (hne j (by omega))] at this
      · simp only [if_neg e]
        rw [hG k hk (by omega)]
        constructor
        · intro h j hj hkj hr
          rw [if_neg (hne j (by omega))]; exact h j hj hkj hr
        · intro h j hj hkj hr
          have := h j hj hkj hr
          rwa [if_neg (hne j (by omega))] at this
  obtain ⟨G, hG⟩ := key n le_rfl
  exact ⟨G, fun k hk => hG k hk (by omega)⟩

theorem greedy_unique (rel : Nat → Nat → Bool) (n : Nat) (G G' : Nat → Bool) (h : IsGreedy rel n G) (h' : IsGreedy rel n G') :
    ∀ k < n, G k = G' k := by
  have key : ∀ d, ∀ k < n, n - k = d → G k = G' k := by
    intro d
    induction d using Nat.strongRecOn with
    | ind d ih =>
      intro k hk hd
      rw [Bool.eq_iff_iff, h k hk, h' k hk]
      constructor
      · intro hh j hj hkj hr; rw [← ih (n - j) (by omega) j hj rfl]; exact hh j hj hkj hr
      · intro hh j hj hkj hr; rw [ih (n - j) (by omega) j hj rfl]; exact hh j hj hkj hr
  intro k hk
  exact key _ k hk rfl

/-- What a rank knows: its objects, and all the pairs of them. -/
structure RankOk (rel : Nat → Nat → Bool) (n : Nat) (own held : List Nat) : Prop where
  nodup : own.Nodup
  own_lt : ∀ i ∈ own, i < n
  held_lt : ∀ j ∈ held, j < n
  heldNodup : held.Nodup
  ghosts : ∀ i ∈ own, ∀ j < n, rel i j = true → j ∈ held

/-- What a rank finds about its objects. -/
structure LocalOk (rel : Nat → Nat → Bool) (n : Nat) (G : Nat → Bool) (own : List Nat) (c : List Nat) (M : List (Nat × Nat)) : Prop where
  nodup : c.Nodup
  mem : ∀ x ∈ c, x ∈ own
  greedy : ∀ x ∈ c, G x = true
  maybe : ∀ p ∈ M, p.1 ∈ own ∧ p.1 ∉ c ∧ p.1 < p.2 ∧ p.2 < n ∧ rel p.1 p.2 = true
  full : ∀ p ∈ M, ∀ j < n, p.1 < j → rel p.1 j = true → (p.1, j) ∈ M
  cover : ∀ x ∈ own, G x = true → x ∈ c ∨ ∃ j, (x, j) ∈ M

theorem foldl_findLocal (rel : Nat → Nat → Bool) (n : Nat) (G : Nat → Bool) (hG : IsGreedy rel n G) (own : List Nat)
    (hown : ∀ i ∈ own, i < n) (gs : List (Nat × List Nat)) (hd : gs.Pairwise fun a b => b.1 < a.1)
    (hk : ∀ g ∈ gs, g.1 ∈ own) (hg : ∀ g ∈ gs, ∀ j, j ∈ g.2 ↔ j < n ∧ g.1 < j ∧ rel g.1 j = true)
    (hs : ∀ g ∈ gs, ∀ j ∈ g.2, j ∈ own) (st : List Nat × List Nat) (h0 : st.1.Nodup)
    (h1 : ∀ c ∈ st.1, c ∈ own ∧ G c = true) (h2 : ∀ c ∈ st.2, c ∈ own ∧ c ∉ st.1)
    (h3 : ∀ x ∈ own, G x = true → x ∈ st.1 ∨ x ∈ st.2 ∨ ∃ g ∈ gs, g.1 = x)
    (h4 : ∀ g ∈ gs, g.1 ∉ st.1 ∧ g.1 ∉ st.2) :
    (gs.foldl findLocal st).1.Nodup ∧ (∀ c ∈ (gs.foldl findLocal st).1, c ∈ own ∧ G c = true) ∧
      (∀ c ∈ (gs.foldl findLocal st).2, c ∈ own ∧ c ∉ (gs.foldl findLocal st).1) ∧
      (∀ x ∈ own, G x = true → x ∈ (gs.foldl findLocal st).1 ∨ x ∈ (gs.foldl findLocal st).2) ∧
      (∀ c ∈ st.1, c ∈ (gs.foldl findLocal st).1) := by
  induction gs generalizing st with
  | nil =>
    refine ⟨h0, h1, h2, fun x hx hGx => ?_, fun c hc => hc⟩
    rcases h3 x hx hGx with h | h | ⟨g, hg, -⟩
    · exact Or.inl h
    · exact Or.inr h
    · cases hg
  | cons g gs ih =>
    rw [List.foldl_cons]
    rw [List.pairwise_cons] at hd
    have hgk := hk g (by simp)
    have hkn := hown _ hgk
    have h4g := h4 g (by simp)
    have ih' := ih hd.2 (fun g' h => hk g' (by simp [h])) (fun g' h => hg g' (by simp [h])) (fun g' h => hs g' (by simp [h]))
    unfold findLocal
    split
    · rename_i hc
      obtain ⟨j, hj, hjc⟩ := List.any_eq_true.mp hc
      have hjc : j ∈ st.1 := by simpa using hjc
      have hnot : G g.1 ≠ true := by
        intro hG'
        have hj' := (hg g (by simp) j).mp hj
        have := (hG g.1 hkn).mp hG' j hj'.1 hj'.2.1 hj'.2.2
        rw [(h1 j hjc).2] at this; cases this
      refine ih' st h0 h1 h2 (fun x hx hGx => ?_) (fun g' h => h4 g' (by simp [h]))
      rcases h3 x hx hGx with h | h | ⟨g', hg', rfl⟩
      · exact Or.inl h
      · exact Or.inr (Or.inl h)
      · rcases List.mem_cons.mp hg' with rfl | hg'
        · exact absurd hGx hnot
        · exact Or.inr (Or.inr ⟨g', hg', rfl⟩)
    · rename_i hc
      split
      · refine ih' (st.1, g.1 :: st.2) h0 h1 ?_ (fun x hx hGx => ?_) (fun g' h => ?_)
        · intro c hc
          rcases List.mem_cons.mp hc with rfl | hc
          · exact ⟨hgk, h4g.1⟩
          · exact h2 c hc
        · rcases h3 x hx hGx with h | h | ⟨g', hg', rfl⟩
          · exact Or.inl h
          · exact Or.inr (Or.inl (by simp [h]))
          · rcases List.mem_cons.mp hg' with rfl | hg'
            · exact Or.inr (Or.inl (by simp))
            · exact Or.inr (Or.inr ⟨g', hg', rfl⟩)
        · have := hd.1 g' h
          have h4' := h4 g' (by simp [h])
          refine ⟨h4'.1, ?_⟩
          rw [List.mem_cons]
          rintro (e | e)
          · omega
          · exact h4'.2 e
      · rename_i hc2
        have hGk : G g.1 = true := by
          rw [hG g.1 hkn]
          intro j hj hkj hr
          have hjg : j ∈ g.2 := (hg g (by simp) j).mpr ⟨hj, hkj, hr⟩
          by_contra hcon
          have hGj : G j = true := by simpa using hcon
          rcases h3 j (hs g (by simp) j hjg) hGj with h | h | ⟨g', hg', rfl⟩
          · exact hc (List.any_eq_true.mpr ⟨j, hjg, by simpa using h⟩)
          · exact hc2 (List.any_eq_true.mpr ⟨j, hjg, by simpa using h⟩)
          · rcases List.mem_cons.mp hg' with rfl | hg'
            · omega
            · have := hd.1 g' hg'; omega
        obtain ⟨r1, r2, r3, r4, r5⟩ := ih' (g.1 :: st.1, st.2) (List.nodup_cons.mpr ⟨h4g.1, h0⟩) (by
            intro c hc
            rcases List.mem_cons.mp hc with rfl | hc
            · exact ⟨hgk, hGk⟩
            · exact h1 c hc) (by
            intro c hc
            refine ⟨(h2 c hc).1, ?_⟩
            rw [List.mem_cons]
            rintro (e | e)
            · exact h4g.2 (e ▸ hc)
            · exact (h2 c hc).2 e) (by
            intro x hx hGx
            rcases h3 x hx hGx with h | h | ⟨g', hg', rfl⟩
            · exact Or.inl (by simp [h])
            · exact Or.inr (Or.inl h)
            · rcases List.mem_cons.mp hg' with rfl | hg'
              · exact Or.inl (by simp)
              · exact Or.inr (Or.inr ⟨g', hg', rfl⟩)) (by
            intro g' h
            have := hd.1 g' h
            have h4' := h4 g' (by simp [h])
            refine ⟨?_, h4'.2⟩
            rw [List.mem_cons]
            rintro (e | e)
            · omega
            · exact h4'.1 e)
        exact ⟨r1, r2, r3, r4, fun c hc => r5 c (by simp [hc])⟩

theorem localCentrals_ok {srt : (Nat × Nat → Nat) → List (Nat × Nat) → List (Nat × Nat)} (hS : IsDesc srt)
    (rel : Nat → Nat → Bool) (n : Nat) (G : Nat → Bool) (hG : IsGreedy rel n G) (allOwn : List (List Nat)) (r : Nat)
    (own held : List Nat) (hr : RankOk rel n own held)
    (how : ∀ j < n, owner allOwn j = r → j ∈ own) :
    LocalOk rel n G own (localCentrals srt rel allOwn r own held).1 (localCentrals srt rel allOwn r own held).2 := by
  obtain ⟨rows, hrows⟩ : ∃ rows, rows = srt Prod.fst (pairs rel own held) := ⟨_, rfl⟩
  obtain ⟨cen, hcen⟩ : ∃ cen, cen = own.filter fun i => jGtI rows i = 0 := ⟨_, rfl⟩
  obtain ⟨other, hother⟩ : ∃ other, other = own.filter fun i => wrongRank allOwn r rows i > 0 := ⟨_, rfl⟩
  obtain ⟨cens, hcens⟩ : ∃ cens, cens = removePaired ((rows.filter fun p => p.2 > p.1).filter fun p => p.1 ∉ cen) cen := ⟨_, rfl⟩
  obtain ⟨st, hst⟩ : ∃ st, st = (groups (cens.filter fun p => p.1 ∉ other)).foldl findLocal (cen, other) := ⟨_, rfl⟩
  have hres : localCentrals srt rel allOwn r own held = (st.1, cens.filter fun p => p.1 ∈ st.2) := by
    rw [hst, hcens, hother, hcen, hrows]; rfl
  rw [hres]
  have mrows : ∀ i ∈ own, ∀ j, (i, j) ∈ rows ↔ j < n ∧ rel i j = true := by
    intro i hi j
    rw [hrows, (hS.perm _ _).mem_iff, mem_pairs]
    exact ⟨fun h => ⟨hr.held_lt j h.2.1, h.2.2⟩, fun h => ⟨hi, hr.ghosts i hi j h.1 h.2, h.2⟩⟩
  have rows_own : ∀ p ∈ rows, p.1 ∈ own := by
    intro p hp
    rw [hrows, (hS.perm _ _).mem_iff, mem_pairs] at hp
    exact hp.1
  have mcen : ∀ i, i ∈ cen ↔ i ∈ own ∧ ∀ j < n, i < j → rel i j = true → False := by
    intro i
    rw [hcen, List.mem_filter]
    refine and_congr_right fun hi => ?_
    unfold jGtI
    rw [decide_eq_true_eq, List.length_eq_zero_iff, List.filter_eq_nil_iff]
    constructor
    · intro h j hj hij hrel
      exact h (i, j) ((mrows i hi j).mpr ⟨hj, hrel⟩) (by simp [hij])
    · rintro h ⟨a, b⟩ hp
      simp only [decide_eq_true_eq]
      rintro ⟨rfl, hab⟩
      have := (mrows a hi b).mp hp
      exact h b this.1 hab this.2
  have mother : ∀ i, i ∈ own → i ∉ other → ∀ j < n, i < j → rel i j = true → j ∈ own := by
    intro i hi hno j hj hij hrel
    by_contra hjo
    apply hno
    rw [hother, List.mem_filter]
    refine ⟨hi, ?_⟩
    simp only [decide_eq_true_eq]
    unfold wrongRank
    refine List.length_pos_of_mem (a := (i, j)) (List.mem_filter.mpr ⟨(mrows i hi j).mpr ⟨hj, hrel⟩, ?_⟩)
    simp only [decide_eq_true_eq, true_and]
    exact ⟨hij, fun e => hjo (how j hj e)⟩
  have cenG : ∀ c ∈ cen, G c = true := by
    intro c hc
    obtain ⟨h1, h2⟩ := (mcen c).mp hc
    rw [hG c (hr.own_lt c h1)]
    intro j hj hcj hrel
    exact (h2 j hj hcj hrel).elim
  have mcens : ∀ x j, (x, j) ∈ cens ↔ x ∈ own ∧ j < n ∧ x < j ∧ rel x j = true ∧ x ∉ cen ∧
      ∀ j' < n, x < j' → rel x j' = true → j' ∉ cen := by
    intro x j
    rw [hcens, mem_removePaired]
    simp only [List.mem_filter, decide_eq_true_eq, gt_iff_lt]
    constructor
    · rintro ⟨⟨⟨h1, h2⟩, h3⟩, h4⟩
      have hx := rows_own _ h1
      have := (mrows x hx j).mp h1
      refine ⟨hx, this.1, h2, this.2, h3, ?_⟩
      intro j' hj' hxj' hrel
      exact h4 j' ⟨⟨(mrows x hx j').mpr ⟨hj', hrel⟩, hxj'⟩, h3⟩
    · rintro ⟨h1, h2, h3, h4, h5, h6⟩
      refine ⟨⟨⟨(mrows x h1 j).mpr ⟨h2, h4⟩, h3⟩, h5⟩, ?_⟩
      rintro j' ⟨⟨h7, h8⟩, -⟩
      have := (mrows x h1 j').mp h7
      exact h6 j' this.1 h8 this.2
  have notRemoved : ∀ x ∈ own, G x = true → ∀ j' < n, x < j' → rel x j' = true → j' ∉ cen := by
    intro x hx hGx j' hj' hxj' hrel hc
    have := (hG x (hr.own_lt x hx)).mp hGx j' hj' hxj' hrel
    rw [cenG j' hc] at this; cases this
  have hasRow : ∀ x ∈ own, x ∉ cen → G x = true → ∃ j, (x, j) ∈ cens := by
    intro x hx hxc hGx
    by_contra hcon
    apply hxc
    rw [mcen]
    refine ⟨hx, fun j hj hxj hrel => hcon ⟨j, ?_⟩⟩
    rw [mcens]
    exact ⟨hx, hj, hxj, hrel, hxc, notRemoved x hx hGx⟩
  have hcenrows : cens.Pairwise fun a b => b.1 ≤ a.1 := by
    rw [hcens]
    unfold removePaired
    refine List.Pairwise.filter _ (List.Pairwise.filter _ (List.Pairwise.filter _ ?_))
    rw [hrows]; exact hS.sorted _ _
  obtain ⟨f1, f2, f3, f4, f5⟩ := foldl_findLocal rel n G hG own hr.own_lt (groups (cens.filter fun p => p.1 ∉ other))
    (groups_desc _ (hcenrows.filter _)) (by
      intro g hg
      obtain ⟨j, hj⟩ := (key_groups _ g.1).mp ⟨g, hg, rfl⟩
      exact ((mcens _ _).mp (List.mem_filter.mp hj).1).1) (by
      intro g hg j
      obtain ⟨j', hj'⟩ := (key_groups _ g.1).mp ⟨g, hg, rfl⟩
      obtain ⟨c1, c2⟩ := List.mem_filter.mp hj'
      have c3 := (mcens _ _).mp c1
      rw [mem_groups _ g hg, List.mem_filter, mcens]
      constructor
      · rintro ⟨h, -⟩; exact ⟨h.2.1, h.2.2.1, h.2.2.2.1⟩
      · rintro ⟨h1, h2, h3⟩; exact ⟨⟨c3.1, h1, h2, h3, c3.2.2.2.2⟩, c2⟩) (by
      intro g hg j hj
      rw [mem_groups _ g hg, List.mem_filter, mcens] at hj
      have hno : g.1 ∉ other := by simpa using hj.2
      exact mother g.1 hj.1.1 hno j hj.1.2.1 hj.1.2.2.1 hj.1.2.2.2.1) (cen, other)
    (by rw [hcen]; exact hr.nodup.filter _) (fun c hc => ⟨((mcen c).mp hc).1, cenG c hc⟩) (by
      intro c hc
      have hc' := hc
      rw [hother, List.mem_filter] at hc
      refine ⟨hc.1, fun hcc => ?_⟩
      have h2 := ((mcen c).mp hcc).2
      have h3 : wrongRank allOwn r rows c > 0 := by simpa using hc.2
      unfold wrongRank at h3
      obtain ⟨p, hp⟩ := List.exists_mem_of_length_pos h3
      obtain ⟨hp1, hp2⟩ := List.mem_filter.mp hp
      simp only [decide_eq_true_eq] at hp2
      obtain ⟨a, b⟩ := p
      obtain ⟨rfl, hp3, -⟩ := hp2
      have := (mrows a hc.1 b).mp hp1
      exact h2 b this.1 hp3 this.2) (by
      intro x hx hGx
      by_cases hxc : x ∈ cen
      · exact Or.inl hxc
      · by_cases hxo : x ∈ other
        · exact Or.inr (Or.inl hxo)
        · obtain ⟨j, hj⟩ := hasRow x hx hxc hGx
          exact Or.inr (Or.inr ((key_groups _ x).mpr ⟨j, List.mem_filter.mpr ⟨hj, by simpa using hxo⟩⟩))) (by
      intro g hg
      obtain ⟨j', hj'⟩ := (key_groups _ g.1).mp ⟨g, hg, rfl⟩
      obtain ⟨c1, c2⟩ := List.mem_filter.mp hj'
      exact ⟨((mcens _ _).mp c1).2.2.2.2.1, by simpa using c2⟩)
  rw [← hst] at f1 f2 f3 f4 f5
  refine ⟨f1, fun x hx => (f2 x hx).1, fun x hx => (f2 x hx).2, ?_, ?_, ?_⟩
  · intro p hp
    obtain ⟨h1, h2⟩ := List.mem_filter.mp hp
    have h2 : p.1 ∈ st.2 := by simpa using h2
    have h3 := (mcens p.1 p.2).mp h1
    exact ⟨h3.1, (f3 _ h2).2, h3.2.2.1, h3.2.1, h3.2.2.2.1⟩
  · intro p hp j hj hpj hrel
    obtain ⟨h1, h2⟩ := List.mem_filter.mp hp
    have h3 := (mcens p.1 p.2).mp h1
    exact List.mem_filter.mpr ⟨(mcens _ _).mpr ⟨h3.1, hj, hpj, hrel, h3.2.2.2.2⟩, h2⟩
  · intro x hx hGx
    rcases f4 x hx hGx with h | h
    · exact Or.inl h
    · have hxc : x ∉ cen := fun hc => (f3 x h).2 (f5 x hc)
      obtain ⟨j, hj⟩ := hasRow x hx hxc hGx
      exact Or.inr ⟨j, List.mem_filter.mpr ⟨hj, by simpa using h⟩⟩

theorem foldl_finalize (rel : Nat → Nat → Bool) (n : Nat) (G : Nat → Bool) (hG : IsGreedy rel n G) (all : List Nat)
    (gs : List (Nat × List Nat)) (hd : gs.Pairwise fun a b => b.1 < a.1) (hk : ∀ g ∈ gs, g.1 < n ∧ g.1 ∉ all)
    (hg : ∀ g ∈ gs, ∀ j, j ∈ g.2 ↔ j < n ∧ g.1 < j ∧ rel g.1 j = true) (ha : ∀ g ∈ gs, ∀ j ∈ g.2, j ∉ all)
    (new : List Nat) (h0 : new.Nodup) (h1 : ∀ c ∈ new, c < n ∧ G c = true ∧ c ∉ all)
    (h3 : ∀ x < n, G x = true → x ∈ all ∨ x ∈ new ∨ ∃ g ∈ gs, g.1 = x) (h4 : ∀ g ∈ gs, g.1 ∉ new) :
    (gs.foldl finalize new).Nodup ∧ (∀ c ∈ gs.foldl finalize new, c < n ∧ G c = true ∧ c ∉ all) ∧
      ∀ x < n, G x = true → x ∈ all ∨ x ∈ gs.foldl finalize new := by
  induction gs generalizing new with
  | nil =>
    refine ⟨h0, h1, fun x hx hGx => ?_⟩
    rcases h3 x hx hGx with h | h | ⟨g, hg, -⟩
    · exact Or.inl h
    · exact Or.inr h
    · cases hg
  | cons g gs ih =>
    rw [List.foldl_cons]
    rw [List.pairwise_cons] at hd
    obtain ⟨hkn, hka⟩ := hk g (by simp)
    have ih' := ih hd.2 (fun g' h => hk g' (by simp [h])) (fun g' h => hg g' (by simp [h])) (fun g' h => ha g' (by simp [h]))
    unfold finalize
    split
    · rename_i hc
      obtain ⟨j, hj, hjc⟩ := List.any_eq_true.mp hc
      have hjc : j ∈ new := by simpa using hjc
      have hnot : G g.1 ≠ true := by
        intro hG'
        have hj' := (hg g (by simp) j).mp hj
        have := (hG g.1 hkn).mp hG' j hj'.1 hj'.2.1 hj'.2.2
        rw [(h1 j hjc).2.1] at this; cases this
      refine ih' new h0 h1 (fun x hx hGx => ?_) (fun g' h => h4 g' (by simp [h]))
      rcases h3 x hx hGx with h | h | ⟨g', hg', rfl⟩
      · exact Or.inl h
      · exact Or.inr (Or.inl h)
      · rcases List.mem_cons.mp hg' with rfl | hg'
        · exact absurd hGx hnot
        · exact Or.inr (Or.inr ⟨g', hg', rfl⟩)
    · rename_i hc
      have hGk : G g.1 = true := by
        rw [hG g.1 hkn]
        intro j hj hkj hr
        have hjg : j ∈ g.2 := (hg g (by simp) j).mpr ⟨hj, hkj, hr⟩
        by_contra hcon
        have hGj : G j = true := by simpa using hcon
        rcases h3 j hj hGj with h | h | ⟨g', hg', rfl⟩
        · exact ha g (by simp) j hjg h
        · exact hc (List.any_eq_true.mpr ⟨j, hjg, by simpa using h⟩)
        · rcases List.mem_cons.mp hg' with rfl | hg'
          · omega
          · have := hd.1 g' hg'; omega
      refine ih' (g.1 :: new) (List.nodup_cons.mpr ⟨h4 g (by simp), h0⟩) ?_ ?_ ?_
      · intro c hc
        rcases List.mem_cons.mp hc with rfl | hc
        · exact ⟨hkn, hGk, hka⟩
        · exact h1 c hc
      · intro x hx hGx
        rcases h3 x hx hGx with h | h | ⟨g', hg', rfl⟩
        · exact Or.inl h
        · exact Or.inr (Or.inl (by simp [h]))
        · rcases List.mem_cons.mp hg' with rfl | hg'
          · exact Or.inr (Or.inl (by simp))
          · exact Or.inr (Or.inr ⟨g', hg', rfl⟩)
      · intro g' h
        have := hd.1 g' h
        rw [List.mem_cons]
        rintro (e | e)
        · omega
        · exact h4 g' (by simp [h]) e

/-- What all the ranks know. -/
structure Spread (rel : Nat → Nat → Bool) (n : Nat) (own held : List (List Nat)) : Prop where
  lengths : own.length = held.length
  perm : own.flatten.Perm (List.range n)
  held_lt : ∀ h ∈ held, ∀ j ∈ h, j < n
  heldNodup : ∀ h ∈ held, h.Nodup
  ghosts : ∀ oh ∈ own.zip held, ∀ i ∈ oh.1, ∀ j < n, rel i j = true → j ∈ oh.2

theorem Spread.rank {rel : Nat → Nat → Bool} {n : Nat} {own held : List (List Nat)} (h : Spread rel n own held)
    (oh : List Nat × List Nat) (hoh : oh ∈ own.zip held) : RankOk rel n oh.1 oh.2 := by
  have h1 : oh.1 ∈ own := (List.of_mem_zip hoh).1
  have h2 : oh.2 ∈ held := (List.of_mem_zip hoh).2
  refine ⟨?_, ?_, h.held_lt _ h2, h.heldNodup _ h2, h.ghosts oh hoh⟩
  · have : own.flatten.Nodup := h.perm.nodup_iff.mpr List.nodup_range
    exact (List.nodup_flatten.mp this).1 _ h1
  · intro i hi
    have : i ∈ own.flatten := List.mem_flatten.mpr ⟨_, h1, hi⟩
    simpa using h.perm.mem_iff.mp this

theorem Spread.owner {rel : Nat → Nat → Bool} {n : Nat} {own held : List (List Nat)} (h : Spread rel n own held) (r : Nat)
    (o : List Nat) (ho : own[r]? = some o) (j : Nat) (hj : j < n) (he : owner own j = r) : j ∈ o := by
  have hmem : j ∈ own.flatten := h.perm.mem_iff.mpr (by simpa using hj)
  obtain ⟨l, hl, hjl⟩ := List.mem_flatten.mp hmem
  have hlt : own.findIdx (fun o => decide (j ∈ o)) < own.length := List.findIdx_lt_length_of_exists ⟨l, hl, by simpa using hjl⟩
  have hget := List.findIdx_getElem (w := hlt)
  unfold Cgm.owner at he
  obtain ⟨hr, rfl⟩ := List.getElem?_eq_some_iff.mp ho
  subst he
  simpa using hget

theorem nodup_flatMap_disjoint (own : List (List Nat)) (f : List (List Nat)) (hf : List.Forall₂ (fun o c => c.Nodup ∧ ∀ x ∈ c, x ∈ o) own f)
    (hn : own.flatten.Nodup) : f.flatten.Nodup := by
  induction hf with
  | nil => simp
  | cons h hf ih =>
    rename_i a b l₁ l₂
    rw [List.flatten_cons, List.nodup_append] at hn
    rw [List.flatten_cons, List.nodup_append]
    refine ⟨h.1, ih hn.2.1, ?_⟩
    intro x hx y hy
    refine hn.2.2 x (h.2 x hx) y ?_
    clear ih hn
    induction hf with
    | nil => simp at hy
    | cons h' hf ih' =>
      rw [List.flatten_cons, List.mem_append] at hy ⊢
      rcases hy with hy | hy
      · exact Or.inl (h'.2 y hy)
      · exact Or.inr (ih' hy)

theorem findCentrals_spec {srt : (Nat × Nat → Nat) → List (Nat × Nat) → List (Nat × Nat)} (hS : IsDesc srt)
    (rel : Nat → Nat → Bool) (n : Nat) (G : Nat → Bool) (hG : IsGreedy rel n G) (own held : List (List Nat))
    (h : Spread rel n own held) (all : List Nat)
    (hall : all = findCentrals srt ((own.zip held).mapIdx fun r oh => localCentrals srt rel own r oh.1 oh.2)) :
    (∀ x, x ∈ all ↔ x < n ∧ G x = true) ∧ all.Pairwise fun a b => b < a := by
  obtain ⟨L, hL⟩ : ∃ L, L = (own.zip held).mapIdx fun r oh => localCentrals srt rel own r oh.1 oh.2 := ⟨_, rfl⟩
  have hlen : L.length = own.length := by rw [hL]; simp [h.lengths]
  have hloc : ∀ (r : Nat) (hr : r < own.length) (hr' : r < L.length), LocalOk rel n G own[r] L[r].1 L[r].2 := by
    intro r hr hr'
    have hz : r < (own.zip held).length := by simpa [h.lengths] using h.lengths ▸ hr
    have e : L[r] = localCentrals srt rel own r own[r] (held[r]'(h.lengths ▸ hr)) := by simp [hL]
    rw [e]
    refine localCentrals_ok hS rel n G hG own r _ _ (h.rank (own[r], held[r]'(h.lengths ▸ hr)) ?_)
      (fun j hj he => h.owner r _ (List.getElem?_eq_getElem hr) j hj he)
    rw [List.mem_iff_getElem]
    exact ⟨r, hz, by simp⟩
  have hmemL : ∀ cM ∈ L, ∃ o ∈ own, LocalOk rel n G o cM.1 cM.2 := by
    intro cM hcM
    obtain ⟨r, hr, rfl⟩ := List.mem_iff_getElem.mp hcM
    exact ⟨own[r]'(hlen ▸ hr), List.getElem_mem _, hloc r (hlen ▸ hr) hr⟩
  have hownN : own.flatten.Nodup := h.perm.nodup_iff.mpr List.nodup_range
  have hown_lt : ∀ o ∈ own, ∀ x ∈ o, x < n := by
    intro o ho x hx
    simpa using h.perm.mem_iff.mp (List.mem_flatten.mpr ⟨o, ho, hx⟩)
  obtain ⟨A, hA⟩ : ∃ A, A = L.flatMap Prod.fst := ⟨_, rfl⟩
  obtain ⟨M, hM⟩ : ∃ M, M = L.flatMap Prod.snd := ⟨_, rfl⟩
  have hAN : A.Nodup := by
    rw [hA, List.flatMap]
    refine nodup_flatMap_disjoint own _ ?_ hownN
    rw [List.forall₂_iff_get]
    refine ⟨by simp [hlen], ?_⟩
    intro i h1 h2
    have := hloc i h1 (by simpa [hlen] using h1)
    simpa using ⟨this.nodup, this.mem⟩
  have hAG : ∀ x ∈ A, x < n ∧ G x = true := by
    intro x hx
    rw [hA, List.mem_flatMap] at hx
    obtain ⟨cM, hcM, hx⟩ := hx
    obtain ⟨o, ho, hl⟩ := hmemL cM hcM
    exact ⟨hown_lt o ho x (hl.mem x hx), hl.greedy x hx⟩
  have hMmem : ∀ p ∈ M, p.1 ∉ A ∧ p.1 < p.2 ∧ p.2 < n ∧ rel p.1 p.2 = true := by
    intro p hp
    rw [hM, List.mem_flatMap] at hp
    obtain ⟨cM, hcM, hp⟩ := hp
    obtain ⟨r, hr, rfl⟩ := List.mem_iff_getElem.mp hcM
    have hl := hloc r (hlen ▸ hr) hr
    have hp' := hl.maybe p hp
    refine ⟨?_, hp'.2.2⟩
    intro hpA
    rw [hA, List.mem_flatMap] at hpA
    obtain ⟨cM', hcM', hpc⟩ := hpA
    obtain ⟨r', hr', rfl⟩ := List.mem_iff_getElem.mp hcM'
    have hl' := hloc r' (hlen ▸ hr') hr'
    by_cases e : r = r'
    · subst e; exact hp'.2.1 hpc
    · have hd := (List.nodup_flatten.mp hownN).2
      rw [List.pairwise_iff_getElem] at hd
      rcases Nat.lt_or_gt_of_ne e with e | e
      · exact hd r r' (hlen ▸ hr) (hlen ▸ hr') e hp'.1 (hl'.mem _ hpc)
      · exact hd r' r (hlen ▸ hr') (hlen ▸ hr) e (hl'.mem _ hpc) hp'.1
  have hMfull : ∀ p ∈ M, ∀ j < n, p.1 < j → rel p.1 j = true → (p.1, j) ∈ M := by
    intro p hp j hj hpj hrel
    rw [hM, List.mem_flatMap] at hp ⊢
    obtain ⟨cM, hcM, hp⟩ := hp
    obtain ⟨o, ho, hl⟩ := hmemL cM hcM
    exact ⟨cM, hcM, hl.full p hp j hj hpj hrel⟩
  have hcov : ∀ x < n, G x = true → x ∈ A ∨ ∃ j, (x, j) ∈ M := by
    intro x hx hGx
    obtain ⟨o, ho, hxo⟩ := List.mem_flatten.mp (h.perm.mem_iff.mpr (List.mem_range.mpr hx))
    obtain ⟨r, hr, rfl⟩ := List.mem_iff_getElem.mp ho
    rcases (hloc r hr (hlen ▸ hr)).cover x hxo hGx with hc | ⟨j, hj⟩
    · exact Or.inl (by rw [hA, List.mem_flatMap]; exact ⟨_, List.getElem_mem _, hc⟩)
    · exact Or.inr ⟨j, by rw [hM, List.mem_flatMap]; exact ⟨_, List.getElem_mem _, hj⟩⟩
  obtain ⟨R, hR⟩ : ∃ R, R = srt Prod.fst (removePaired M A) := ⟨_, rfl⟩
  have hRmem : ∀ p, p ∈ R ↔ p ∈ M ∧ ∀ j, (p.1, j) ∈ M → j ∉ A := by
    intro p; rw [hR, (hS.perm _ _).mem_iff, mem_removePaired]
  obtain ⟨f1, f2, f3⟩ := foldl_finalize rel n G hG A (groups R) (groups_desc _ (by rw [hR]; exact hS.sorted _ _)) (by
      intro g hg
      obtain ⟨j, hj⟩ := (key_groups _ g.1).mp ⟨g, hg, rfl⟩
      have := hMmem _ ((hRmem _).mp hj).1
      exact ⟨Nat.lt_trans this.2.1 this.2.2.1, this.1⟩) (by
      intro g hg j
      obtain ⟨j', hj'⟩ := (key_groups _ g.1).mp ⟨g, hg, rfl⟩
      have c := (hRmem _).mp hj'
      rw [mem_groups _ g hg, hRmem]
      constructor
      · rintro ⟨h1, -⟩
        have := hMmem _ h1
        exact ⟨this.2.2.1, this.2.1, this.2.2.2⟩
      · rintro ⟨h1, h2, h3⟩
        exact ⟨hMfull _ c.1 j h1 h2 h3, c.2⟩) (by
      intro g hg j hj
      rw [mem_groups _ g hg, hRmem] at hj
      exact hj.2 j hj.1) [] List.nodup_nil (by intro c hc; cases hc) (by
      intro x hx hGx
      rcases hcov x hx hGx with hc | ⟨j, hj⟩
      · exact Or.inl hc
      · refine Or.inr (Or.inr ((key_groups _ x).mpr ⟨j, (hRmem _).mpr ⟨hj, ?_⟩⟩))
        intro j' hj' hA'
        have h1 := hMmem _ hj'
        have := (hG x hx).mp hGx j' h1.2.2.1 h1.2.1 h1.2.2.2
        rw [(hAG j' hA').2] at this; cases this) (by intro g _ hc; cases hc)
  have hdef : all = (A ++ (groups R).foldl finalize []).mergeSort fun a b => b ≤ a := by
    rw [hall, hR, hM, hA, hL]; rfl
  have hp : all.Perm (A ++ (groups R).foldl finalize []) := by rw [hdef]; exact List.mergeSort_perm _ _
  constructor
  · intro x
    rw [hp.mem_iff, List.mem_append]
    constructor
    · rintro (hx | hx)
      · exact hAG x hx
      · exact ⟨(f2 x hx).1, (f2 x hx).2.1⟩
    · rintro ⟨hx, hGx⟩; exact f3 x hx hGx
  · have hs : all.Pairwise fun a b => b ≤ a := by
      rw [hdef]
      have := List.pairwise_mergeSort (le := fun a b : Nat => decide (b ≤ a)) (by intro a b c; simp; omega) (by intro a b; simp; omega)
        (A ++ (groups R).foldl finalize [])
      exact this.imp fun h => by simpa using h
    have hn : all.Nodup := by
      rw [hp.nodup_iff, List.nodup_append]
      exact ⟨hAN, f1, fun a ha b hb e => (f2 b hb).2.2 (e ▸ ha)⟩
    exact (hs.and hn).imp fun ⟨h1, h2⟩ => by omega

end NBK.Cgm
