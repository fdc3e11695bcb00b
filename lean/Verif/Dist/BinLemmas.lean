import Verif.Dist.UniqueLemmas

/-! Helper lemmas for `bincount`. -/
set_option linter.unusedSimpArgs false
namespace NBK.Dist
variable {M : Type} [AddCommMonoid M]

/-- Total weight of label `v`. -/
def cnt (l : List (Nat × M)) (v : Nat) : M := ((l.filter fun p => p.1 == v).map Prod.snd).sum

theorem cnt_append (l₁ l₂ : List (Nat × M)) (v : Nat) : cnt (l₁ ++ l₂) v = cnt l₁ v + cnt l₂ v := by
  simp [cnt, List.filter_append]

theorem cnt_zero (l : List (Nat × M)) (v : Nat) (h : ∀ p ∈ l, p.1 ≠ v) : cnt l v = 0 := by
  have : l.filter (fun p => p.1 == v) = [] := by
    rw [List.filter_eq_nil_iff]; intro p hp; simpa using h p hp
  simp [cnt, this]

theorem cnt_flatten (D : List (List (Nat × M))) (v : Nat) : cnt D.flatten v = (D.map (cnt · v)).sum := by
  induction D with
  | nil => simp [cnt]
  | cons d D ih => rw [List.flatten_cons, cnt_append, ih]; simp

theorem foldr_max_eq {β : Type} (f : β → Nat) (xs : List β) (m : Nat) (hle : ∀ p ∈ xs, f p ≤ m)
    (hex : ∃ p ∈ xs, f p = m) : xs.foldr (fun p k => max (f p) k) 0 = m := by
  have h1 : ∀ ys : List β, (∀ p ∈ ys, f p ≤ m) → ys.foldr (fun p k => max (f p) k) 0 ≤ m := by
    intro ys hys
    induction ys with
    | nil => simp
    | cons y ys ih =>
      rw [List.foldr_cons]
      exact max_le (hys y (by simp)) (ih fun p hp => hys p (by simp [hp]))
  have h2 : ∀ ys : List β, ∀ p ∈ ys, f p ≤ ys.foldr (fun p k => max (f p) k) 0 := by
    intro ys
    induction ys with
    | nil => simp
    | cons y ys ih =>
      intro p hp
      rw [List.foldr_cons]
      rcases List.mem_cons.mp hp with rfl | hp
      · exact le_max_left _ _
      · exact le_trans (ih p hp) (le_max_right _ _)
  obtain ⟨p, hp, rfl⟩ := hex
  exact le_antisymm (h1 xs hle) (h2 xs p hp)

/-- Bins `off .. z` of a local array. -/
def bins (l : List (Nat × M)) (off : Nat) : List M :=
  match l.getLast? with
  | none => []
  | some z => (List.range (z.1 + 1 - off)).map fun j => cnt l (off + j)

theorem npBincount_eq (l : List (Nat × M)) (off : Nat) (hs : (l.map Prod.fst).Pairwise (· ≤ ·))
    (hoff : ∀ p ∈ l, off ≤ p.1) :
    npBincount (l.map fun p => ((p.1 : Int) - (off : Int), p.2)) = some (bins l off) := by
  unfold npBincount
  rw [if_neg]
  · congr 1
    unfold bins
    cases hz : l.getLast? with
    | none =>
      have : l = [] := by simpa using hz
      subst this; simp
    | some z =>
      have hz' : (l.map Prod.fst).getLast? = some z.1 := by rw [List.getLast?_map, hz]; rfl
      obtain ⟨hm, hmax⟩ := last_max hs hz'
      have hzl : z ∈ l := List.mem_of_mem_getLast? hz
      have e : (l.map fun p => ((p.1 : Int) - (off : Int), p.2)).foldr
          (fun p m => max (p.1.toNat + 1) m) 0 = z.1 + 1 - off := by
        apply foldr_max_eq (fun p : Int × M => p.1.toNat + 1)
        · intro p hp
          simp only [List.mem_map] at hp
          obtain ⟨q, hq, rfl⟩ := hp
          have := hmax q.1 (List.mem_map_of_mem hq)
          have := hoff q hq
          simp only []; omega
        · refine ⟨((z.1 : Int) - off, z.2), List.mem_map.mpr ⟨z, hzl, rfl⟩, ?_⟩
          have := hoff z hzl
          simp only []; omega
      simp only [e]
      congr 1
      apply List.map_congr_left
      intro v _
      unfold cnt
      rw [List.filter_map, List.map_map]
      have : ∀ p ∈ l, ((fun p : Int × M => p.1 == (v : Int)) ∘ fun p : Nat × M => ((p.1 : Int) - (off : Int), p.2)) p
          = (p.1 == off + v) := by
        intro p _
        simp only [Function.comp_apply]
        rw [Bool.eq_iff_iff, beq_iff_eq, beq_iff_eq]; omega
      rw [List.filter_congr this]
      rfl
  · simp only [List.any_map, List.any_eq_true, Function.comp_apply, decide_eq_true_eq, not_exists, not_and]
    intro p hp
    have := hoff p hp
    omega

theorem mapM_some {β : Type} (l : List β) : (l.map some).mapM id = some l := by
  induction l with
  | nil => rfl
  | cons a l ih => simp [List.mapM_cons, ih]

theorem foldl_addHead (N : List M) (xs : List M) : xs.foldl addHead N = N.modifyHead (· + xs.sum) := by
  induction xs generalizing N with
  | nil => cases N <;> simp
  | cons x xs ih =>
    rw [List.foldl_cons, ih]
    cases N <;> simp [addHead, add_assoc]

theorem foldl_addLast (N : List M) (xs : List M) :
    xs.foldl addLast N = N.modify (N.length - 1) (· + xs.sum) := by
  induction xs generalizing N with
  | nil =>
    apply List.ext_getElem?
    intro j
    rw [List.getElem?_modify]
    cases h : N[j]? <;> simp [h]
  | cons x xs ih =>
    rw [List.foldl_cons, ih]
    simp only [addLast, List.length_modify]
    rw [List.modify_modify_eq]
    simp [Function.comp_def, add_assoc]

theorem modify_eq_mapIdx {β : Type} (N : List β) (k : Nat) (f : β → β) :
    N.modify k f = N.mapIdx fun j x => if j = k then f x else x := by
  apply List.ext_getElem?
  intro j
  rw [List.getElem?_modify, List.getElem?_mapIdx]
  cases N[j]? with
  | none => rfl
  | some x => simp only [Option.map_some, eq_comm]; split <;> rfl

theorem modifyHead_eq_mapIdx {β : Type} (N : List β) (f : β → β) :
    N.modifyHead f = N.mapIdx fun j x => if j = 0 then f x else x := by
  cases N with
  | nil => rfl
  | cons a N =>
    rw [List.mapIdx_cons]
    apply List.ext_getElem?
    intro j
    cases j with
    | zero => simp
    | succ j => simp [List.getElem?_mapIdx]

theorem filterMap_sum {β : Type} (l : List β) (f : β → Option M) :
    (l.filterMap f).sum = (l.map fun x => (f x).getD 0).sum := by
  induction l with
  | nil => rfl
  | cons x l ih => rw [List.filterMap_cons]; cases h : f x <;> simp [h, ih]

/-- Everything the rank-level argument needs about rank `r`. -/
structure Around (D : List (List (Nat × M))) (r : Nat) (d : List (Nat × M)) : Prop where
  hr : D[r]? = some d
  sorted : ((D.take r).flatten ++ d ++ (D.drop (r + 1)).flatten).Pairwise (fun x y => x.1 ≤ y.1)

theorem around {D : List (List (Nat × M))} (hs : D.flatten.Pairwise (fun x y => x.1 ≤ y.1)) {r : Nat}
    {d : List (Nat × M)} (hr : D[r]? = some d) : Around D r d := by
  refine ⟨hr, ?_⟩
  obtain ⟨h, rfl⟩ := List.getElem?_eq_some_iff.mp hr
  rw [← NBK.Comm.flatten_split D r h]; exact hs

theorem pairwise_fst {l : List (Nat × M)} (h : l.Pairwise (fun x y => x.1 ≤ y.1)) :
    (l.map Prod.fst).Pairwise (· ≤ ·) := List.pairwise_map.mpr h

theorem last_ge {l : List (Nat × M)} (h : l.Pairwise (fun x y => x.1 ≤ y.1)) {z : Nat × M}
    (hz : l.getLast? = some z) : z ∈ l ∧ ∀ y ∈ l, y.1 ≤ z.1 := by
  refine ⟨List.mem_of_mem_getLast? hz, fun y hy => ?_⟩
  exact (last_max (pairwise_fst h) (z := z.1) (by rw [List.getLast?_map, hz]; rfl)).2 y.1 (List.mem_map_of_mem hy)

theorem head_le {l : List (Nat × M)} (h : l.Pairwise (fun x y => x.1 ≤ y.1)) {z : Nat × M}
    (hz : l.head? = some z) : z ∈ l ∧ ∀ y ∈ l, z.1 ≤ y.1 := by
  refine ⟨List.mem_of_mem_head? hz, fun y hy => ?_⟩
  exact (head_min (pairwise_fst h) (a := z.1) (by rw [List.head?_map, hz]; rfl)).2 y.1 (List.mem_map_of_mem hy)

/-- `binOffset` of a non-empty rank with first item `a`. -/
theorem offset_nonempty {D : List (List (Nat × M))} {r : Nat} {d : List (Nat × M)} (A : Around D r d)
    {a : Nat × M} (ha : d.head? = some a) :
    binOffset D r d ≤ a.1 ∧ (∀ p ∈ (D.take r).flatten, p.1 ≤ binOffset D r d) ∧
      ((∃ p ∈ (D.take r).flatten, p.1 = a.1) → binOffset D r d = a.1) ∧
      ((∀ p ∈ (D.take r).flatten, p.1 ≠ a.1) → ∀ p ∈ (D.take r).flatten, p.1 < binOffset D r d) := by
  have hs := A.sorted
  rw [List.pairwise_append, List.pairwise_append] at hs
  obtain ⟨⟨hpre, hd, hpd⟩, -, -⟩ := hs
  have ham := (head_le hd ha).1
  unfold binOffset
  rw [prev_eq]
  cases hp : (D.take r).flatten.getLast? with
  | none =>
    have : (D.take r).flatten = [] := by simpa using hp
    simp [this]
  | some p =>
    obtain ⟨hpm, hpmax⟩ := last_ge hpre hp
    have hpa := hpd p hpm a ham
    cases d with
    | nil => simp at ha
    | cons x d =>
      simp only [List.head?_cons, Option.some.injEq] at ha; subst ha
      simp only [Option.map_some]
      by_cases h : p.1 = x.1
      · rw [if_neg (by simpa using h)]
        refine ⟨hpa, hpmax, fun _ => h, fun hne => absurd h (hne p hpm)⟩
      · rw [if_pos h]
        refine ⟨by omega, fun q hq => by have := hpmax q hq; omega, ?_, fun _ q hq => by have := hpmax q hq; omega⟩
        rintro ⟨q, hq, hqx⟩
        have := hpmax q hq
        omega

theorem offset_le {D : List (List (Nat × M))} {r : Nat} {d : List (Nat × M)} (A : Around D r d) :
    ∀ p ∈ d, binOffset D r d ≤ p.1 := by
  intro p hp
  obtain ⟨a, ha⟩ : ∃ a, d.head? = some a := by
    cases d with
    | nil => simp at hp
    | cons b d => exact ⟨b, rfl⟩
  have hs := A.sorted
  rw [List.pairwise_append, List.pairwise_append] at hs
  have := (head_le hs.1.2.1 ha).2 p hp
  have := (offset_nonempty A ha).1
  omega

theorem localCounts_eq {D : List (List (Nat × M))} {r : Nat} {d : List (Nat × M)} (A : Around D r d) :
    localCounts D r d = some (bins d (binOffset D r d)) := by
  have hs := A.sorted
  rw [List.pairwise_append, List.pairwise_append] at hs
  exact npBincount_eq d _ (pairwise_fst hs.1.2.1) (offset_le A)

/-- All local counts before communication. -/
def allBins (D : List (List (Nat × M))) : List (List M) := D.mapIdx fun r l => bins l (binOffset D r l)

theorem allBins_get (D : List (List (Nat × M))) (r : Nat) :
    (allBins D)[r]? = D[r]?.map fun l => bins l (binOffset D r l) := by
  simp [allBins, List.getElem?_mapIdx]

theorem bincount_unfold (sh : Bool) (D : List (List (Nat × M)))
    (hs : D.flatten.Pairwise (fun x y => x.1 ≤ y.1)) :
    bincount sh D = some (D.mapIdx fun r l => mergeCounts sh D (allBins D) r l (bins l (binOffset D r l))) := by
  have h1 : (D.mapIdx fun r l => localCounts D r l) = (allBins D).map some := by
    apply List.ext_getElem?
    intro r
    rw [List.getElem?_mapIdx, List.getElem?_map, allBins_get]
    cases hr : D[r]? with
    | none => rfl
    | some d => simp [localCounts_eq (around hs hr)]
  unfold bincount
  rw [h1, mapM_some]
  simp only [Option.bind_eq_bind, Option.bind_some, Option.pure_def, Option.some.injEq]
  apply List.ext_getElem?
  intro r
  rw [List.getElem?_mapIdx, List.getElem?_mapIdx]
  have : (D.zip (allBins D))[r]? = D[r]?.map fun l => (l, bins l (binOffset D r l)) := by
    rw [List.zip, List.getElem?_zipWith, allBins_get]
    cases D[r]? <;> rfl
  rw [this]
  cases D[r]? <;> rfl

theorem bins_last (l : List (Nat × M)) (off : Nat) {z : Nat × M} (hz : l.getLast? = some z) (h : off ≤ z.1) :
    (bins l off).getLast? = some (cnt l z.1) := by
  unfold bins
  rw [hz]
  simp only []
  rw [show z.1 + 1 - off = (z.1 - off) + 1 by omega, List.range_succ, List.map_append]
  simp only [List.map_cons, List.map_nil, List.getLast?_append, List.getLast?_singleton, Option.some_or]
  rw [show off + (z.1 - off) = z.1 by omega]

theorem bins_head (l : List (Nat × M)) (off : Nat) {z : Nat × M} (hz : l.getLast? = some z) (h : off ≤ z.1) :
    (bins l off).head? = some (cnt l off) := by
  unfold bins
  rw [hz]
  simp only []
  rw [show z.1 + 1 - off = (z.1 - off) + 1 by omega, List.range_succ_eq_map]
  simp

theorem nonempty_last {l : List (Nat × M)} {a : Nat × M} (ha : l.head? = some a) : ∃ z, l.getLast? = some z := by
  cases l with
  | nil => simp at ha
  | cons b l => exact ⟨_, List.getLast?_cons⟩

/-- What the ranks on the left contribute. -/
theorem left_sum (D : List (List (Nat × M))) (hs : D.flatten.Pairwise (fun x y => x.1 ≤ y.1)) (r : Nat)
    (d : List (Nat × M)) (hr : D[r]? = some d) (a : Nat × M) (ha : d.head? = some a) :
    ((((tails D).zip (tails (allBins D))).take r).filterMap fun q =>
      if q.1.map Prod.fst = some a.1 then q.2 else none).sum = cnt (D.take r).flatten a.1 := by
  rw [filterMap_sum, cnt_flatten]
  congr 1
  apply List.ext_getElem?
  intro i
  simp only [List.getElem?_map, List.getElem?_take]
  by_cases hi : i < r
  · simp only [hi, if_true]
    have e : ((tails D).zip (tails (allBins D)))[i]? = D[i]?.map fun l => (l.getLast?, (bins l (binOffset D i l)).getLast?) := by
      rw [List.zip, List.getElem?_zipWith, tails, tails, List.getElem?_map, List.getElem?_map, allBins_get]
      cases D[i]? <;> rfl
    rw [e]
    cases hdi : D[i]? with
    | none => rfl
    | some di =>
      simp only [Option.map_some, Option.some.injEq]
      cases hz : di.getLast? with
      | none =>
        have : di = [] := by simpa using hz
        subst this; simp [cnt]
      | some z =>
        have Ai := around hs hdi
        have hsi := Ai.sorted
        rw [List.pairwise_append, List.pairwise_append] at hsi
        obtain ⟨hzm, hzmax⟩ := last_ge hsi.1.2.1 hz
        simp only [Option.map_some, Option.some.injEq]
        by_cases hza : z.1 = a.1
        · rw [if_pos hza, bins_last di _ hz (offset_le Ai z hzm), hza]; rfl
        · rw [if_neg hza]
          symm
          apply cnt_zero
          intro p hp
          have h1 := hzmax p hp
          have h2 : z.1 ≤ a.1 := by
            apply hsi.2.2 z (by simp [hzm]) a
            rw [List.mem_flatten]
            exact ⟨d, List.mem_iff_getElem?.mpr ⟨r - (i + 1), by rw [List.getElem?_drop, show i + 1 + (r - (i+1)) = r by omega, hr]⟩, List.mem_of_mem_head? ha⟩
          omega
  · simp [hi]

/-- Some rank on the left shares the first label iff that label occurs on the left. -/
theorem left_shared (D : List (List (Nat × M))) (hs : D.flatten.Pairwise (fun x y => x.1 ≤ y.1)) (r : Nat)
    (d : List (Nat × M)) (hr : D[r]? = some d) (a : Nat × M) (ha : d.head? = some a) :
    ((((tails D).zip (tails (allBins D))).take r).filterMap fun q =>
      if q.1.map Prod.fst = some a.1 then q.2 else none).isEmpty = false ↔
      ∃ p ∈ (D.take r).flatten, p.1 = a.1 := by
  have e : ∀ i, ((tails D).zip (tails (allBins D)))[i]? = D[i]?.map fun l => (l.getLast?, (bins l (binOffset D i l)).getLast?) := by
    intro i
    rw [List.zip, List.getElem?_zipWith, tails, tails, List.getElem?_map, List.getElem?_map, allBins_get]
    cases D[i]? <;> rfl
  rw [List.isEmpty_eq_false_iff_exists_mem]
  constructor
  · rintro ⟨x, hx⟩
    rw [List.mem_filterMap] at hx
    obtain ⟨q, hq, hqx⟩ := hx
    obtain ⟨i, hi⟩ := List.mem_iff_getElem?.mp hq
    rw [List.getElem?_take] at hi
    split at hi
    · rename_i hir
      rw [e, Option.map_eq_some_iff] at hi
      obtain ⟨di, hdi, rfl⟩ := hi
      simp only at hqx
      split at hqx
      · rename_i hz
        rw [Option.map_eq_some_iff] at hz
        obtain ⟨z, hz, hza⟩ := hz
        refine ⟨z, ?_, hza⟩
        rw [List.mem_flatten]
        exact ⟨di, List.mem_iff_getElem?.mpr ⟨i, by rw [List.getElem?_take, if_pos hir, hdi]⟩, List.mem_of_mem_getLast? hz⟩
      · cases hqx
    · cases hi
  · rintro ⟨p, hp, hpa⟩
    rw [List.mem_flatten] at hp
    obtain ⟨di, hdi, hpdi⟩ := hp
    obtain ⟨i, hi⟩ := List.mem_iff_getElem?.mp hdi
    rw [List.getElem?_take] at hi
    split at hi
    · rename_i hir
      have Ai := around hs hi
      have hsi := Ai.sorted
      rw [List.pairwise_append, List.pairwise_append] at hsi
      obtain ⟨z, hz⟩ : ∃ z, di.getLast? = some z := by
        cases di with
        | nil => simp at hpdi
        | cons b l => exact ⟨_, List.getLast?_cons⟩
      obtain ⟨hzm, hzmax⟩ := last_ge hsi.1.2.1 hz
      have h1 := hzmax p hpdi
      have h2 : z.1 ≤ a.1 := by
        apply hsi.2.2 z (by simp [hzm]) a
        rw [List.mem_flatten]
        exact ⟨d, List.mem_iff_getElem?.mpr ⟨r - (i + 1), by rw [List.getElem?_drop, show i + 1 + (r - (i+1)) = r by omega, hr]⟩, List.mem_of_mem_head? ha⟩
      have hza : z.1 = a.1 := by omega
      refine ⟨cnt di z.1, ?_⟩
      rw [List.mem_filterMap]
      refine ⟨(some z, some (cnt di z.1)), ?_, by simp [hza]⟩
      apply List.mem_iff_getElem?.mpr
      refine ⟨i, ?_⟩
      rw [List.getElem?_take, if_pos hir, e, hi, Option.map_some, hz, bins_last di _ hz (offset_le Ai z hzm)]
    · cases hi

/-- What the ranks on the right contribute. -/
theorem right_sum (D : List (List (Nat × M))) (hs : D.flatten.Pairwise (fun x y => x.1 ≤ y.1)) (r : Nat)
    (d : List (Nat × M)) (hr : D[r]? = some d) (z : Nat × M) (hz : d.getLast? = some z) :
    ((((heads D).zip (heads (allBins D))).drop (r + 1)).filterMap fun q =>
      if q.1.map Prod.fst = some z.1 then q.2 else none).sum = cnt (D.drop (r + 1)).flatten z.1 := by
  rw [filterMap_sum, cnt_flatten]
  congr 1
  apply List.ext_getElem?
  intro k
  simp only [List.getElem?_map, List.getElem?_drop]
  generalize hik : r + 1 + k = i
  have e : ((heads D).zip (heads (allBins D)))[i]? = D[i]?.map fun l => (l.head?, (bins l (binOffset D i l)).head?) := by
    rw [List.zip, List.getElem?_zipWith, heads, heads, List.getElem?_map, List.getElem?_map, allBins_get]
    cases D[i]? <;> rfl
  rw [e]
  cases hdi : D[i]? with
  | none => rfl
  | some di =>
    simp only [Option.map_some, Option.some.injEq]
    cases hh : di.head? with
    | none =>
      have : di = [] := by simpa using hh
      subst this; simp [cnt]
    | some b =>
      have Ai := around hs hdi
      have hsi := Ai.sorted
      rw [List.pairwise_append, List.pairwise_append] at hsi
      obtain ⟨hbm, hbmin⟩ := head_le hsi.1.2.1 hh
      have hzpre : z ∈ (D.take i).flatten := by
        rw [List.mem_flatten]
        exact ⟨d, List.mem_iff_getElem?.mpr ⟨r, by rw [List.getElem?_take, if_pos (by omega), hr]⟩, List.mem_of_mem_getLast? hz⟩
      have hzb : z.1 ≤ b.1 := hsi.1.2.2 z hzpre b hbm
      simp only [Option.map_some, Option.some.injEq]
      by_cases hbz : b.1 = z.1
      · rw [if_pos hbz]
        obtain ⟨w, hw⟩ := nonempty_last hh
        have hwm := (last_ge hsi.1.2.1 hw).1
        rw [bins_head di _ hw (offset_le Ai w hwm)]
        have := (offset_nonempty Ai hh).2.2.1 ⟨z, hzpre, hbz.symm⟩
        rw [this, hbz]; rfl
      · rw [if_neg hbz]
        symm
        apply cnt_zero
        intro p hp
        have h1 := hbmin p hp
        omega

/-- Result of `bincount` on one non-empty rank. -/
theorem merge_eq (sh : Bool) (D : List (List (Nat × M))) (hs : D.flatten.Pairwise (fun x y => x.1 ≤ y.1)) (r : Nat)
    (d : List (Nat × M)) (hr : D[r]? = some d) (a z : Nat × M) (ha : d.head? = some a) (hz : d.getLast? = some z) :
    mergeCounts sh D (allBins D) r d (bins d (binOffset D r d))
      = let full := (List.range (z.1 + 1 - binOffset D r d)).map fun j => cnt D.flatten (binOffset D r d + j)
        if sh = false ∧ ∃ p ∈ (D.take r).flatten, p.1 = a.1 then full.tail else full := by
  have A := around hs hr
  have hso := A.sorted
  rw [List.pairwise_append, List.pairwise_append] at hso
  obtain ⟨⟨hpre, hd, hpd⟩, hpost, hcross⟩ := hso
  obtain ⟨ham, hamin⟩ := head_le hd ha
  obtain ⟨hzm, hzmax⟩ := last_ge hd hz
  obtain ⟨o1, o2, o3, o4⟩ := offset_nonempty A ha
  have hoz := offset_le A z hzm
  unfold mergeCounts
  simp only [ha, hz]
  have hshared := left_shared D hs r d hr a ha
  have hl := left_sum D hs r d hr a ha
  have hright := right_sum D hs r d hr z hz
  rw [foldl_addHead, foldl_addLast, List.sum_reverse, hl, hright]
  have hfull : List.modify (List.modifyHead (fun x => x + cnt (D.take r).flatten a.1) (bins d (binOffset D r d)))
      ((List.modifyHead (fun x => x + cnt (D.take r).flatten a.1) (bins d (binOffset D r d))).length - 1)
      (fun x => x + cnt (D.drop (r+1)).flatten z.1)
      = (List.range (z.1 + 1 - binOffset D r d)).map fun j => cnt D.flatten (binOffset D r d + j) := by
    have hb : bins d (binOffset D r d) = (List.range (z.1 + 1 - binOffset D r d)).map fun j => cnt d (binOffset D r d + j) := by
      unfold bins; rw [hz]
    rw [hb, modify_eq_mapIdx, modifyHead_eq_mapIdx]
    apply List.ext_getElem?
    intro j
    simp only [List.getElem?_mapIdx, List.getElem?_map, List.length_mapIdx, List.length_map, List.length_range]
    by_cases hj : j < z.1 + 1 - binOffset D r d
    · rw [List.getElem?_range hj]
      simp only [Option.map_some, Option.some.injEq]
      have hsplit : cnt D.flatten (binOffset D r d + j) = cnt (D.take r).flatten (binOffset D r d + j)
          + cnt d (binOffset D r d + j) + cnt (D.drop (r+1)).flatten (binOffset D r d + j) := by
        obtain ⟨h, rfl⟩ := List.getElem?_eq_some_iff.mp hr
        conv_lhs => rw [NBK.Comm.flatten_split D r h]
        rw [cnt_append, cnt_append]
      rw [hsplit]
      have hL : cnt (D.take r).flatten (binOffset D r d + j) = if j = 0 then cnt (D.take r).flatten a.1 else 0 := by
        by_cases hex : ∃ p ∈ (D.take r).flatten, p.1 = a.1
        · have := o3 hex
          by_cases hj0 : j = 0
          · rw [if_pos hj0, this, hj0]; rfl
          · rw [if_neg hj0]
            apply cnt_zero
            intro p hp
            have := o2 p hp
            omega
        · push Not at hex
          rw [cnt_zero _ a.1 hex, ite_self]
          apply cnt_zero
          intro p hp
          have := o4 hex p hp
          omega
      have hR : cnt (D.drop (r+1)).flatten (binOffset D r d + j)
          = if j = z.1 + 1 - binOffset D r d - 1 then cnt (D.drop (r+1)).flatten z.1 else 0 := by
        by_cases hjl : j = z.1 + 1 - binOffset D r d - 1
        · rw [if_pos hjl]; congr 1; omega
        · rw [if_neg hjl]
          apply cnt_zero
          intro p hp
          have := hcross z (by simp [hzm]) p hp
          omega
      rw [hL, hR]
      generalize cnt (D.take r).flatten a.1 = u
      generalize cnt d (binOffset D r d + j) = v
      generalize cnt (D.drop (r+1)).flatten z.1 = w
      split <;> split <;> simp [add_comm, add_left_comm]
    · have : (List.range (z.1 + 1 - binOffset D r d))[j]? = none := by
        rw [List.getElem?_eq_none]; simpa using Nat.le_of_not_lt hj
      rw [this]; rfl
  rw [hfull]
  have hc : (!sh && !(List.filterMap (fun q => if Option.map Prod.fst q.1 = some a.1 then q.2 else none)
      (List.take r ((tails D).zip (tails (allBins D))))).isEmpty) = true ↔
      (sh = false ∧ ∃ p ∈ (D.take r).flatten, p.1 = a.1) := by
    rw [← hshared]; simp
  simp only [hc]

end NBK.Dist
