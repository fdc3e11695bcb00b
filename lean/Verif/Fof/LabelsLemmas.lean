import Verif.Fof.Labels
import Verif.Fof.Props
import Verif.Dist.Props

/-! Lemmas for `_assign_labels`. -/
namespace NBK.Fof
set_option linter.unusedSimpArgs false
open NBK.Dist (uniqueLabels bincount localCounts)

theorem mapM_index {α β : Type} (f : α → Except Err β) (A : List α) (B : List β) (hl : A.length = B.length)
    (h : ∀ (r : Nat) (a : α) (b : β), A[r]? = some a → B[r]? = some b → f a = .ok b) : A.mapM f = .ok B := by
  induction A generalizing B with
  | nil =>
    have : B = [] := List.length_eq_zero_iff.mp hl.symm
    subst this; rfl
  | cons a A ih =>
    cases B with
    | nil => cases hl
    | cons b B =>
      rw [List.mapM_cons, h 0 a b rfl rfl, ih B (by simpa using hl) fun r a b ha hb => h (r + 1) a b (by simpa using ha) (by simpa using hb)]
      rfl

theorem cut_map_length {α : Type} (sizes : List Nat) (l : List α) (h : l.length = sizes.sum) :
    (cut sizes l).map List.length = sizes := by
  unfold cut
  apply List.ext_getElem
  · simp
  · intro r h1 h2
    have h3 := List.sum_take_add_sum_drop sizes r
    rw [List.drop_eq_getElem_cons h2, List.sum_cons] at h3
    simp; omega

theorem cut_map {α β : Type} (f : α → β) (sizes : List Nat) (l : List α) :
    cut sizes (l.map f) = (cut sizes l).map (List.map f) := by
  unfold cut
  apply List.ext_getElem?
  intro r
  rw [List.getElem?_mapIdx, List.getElem?_map, List.getElem?_mapIdx]
  cases sizes[r]? with
  | none => rfl
  | some n => simp only [Option.map_some, List.map_take, List.map_drop]

theorem cut_flatten_self {α : Type} (D : List (List α)) : cut (D.map List.length) D.flatten = D := by
  unfold cut
  apply List.ext_getElem?
  intro r
  rw [List.getElem?_mapIdx, List.getElem?_map]
  cases h : D[r]? with
  | none => rfl
  | some d =>
    have := NBK.Comm.rank_window D r d h
    simp only [Option.map_some, Option.some.injEq]
    conv_rhs => rw [this]
    rw [List.length_flatten, List.map_take]

theorem sortBy_flatten {srt : (Rec → Nat) → List Rec → List Rec} (hS : IsSort srt) (key : Rec → Nat) (D : List (List Rec)) :
    (sortBy srt key D).flatten = srt key D.flatten := by
  have : cut (D.map List.length) (srt key D.flatten) = cut (D.map List.length) (srt key D.flatten) := rfl
  unfold sortBy cut
  rw [NBK.Comm.windows_flatten, ← List.length_flatten, ← (hS.perm key D.flatten).length_eq, List.take_length]

theorem sortBy_lengths {srt : (Rec → Nat) → List Rec → List Rec} (hS : IsSort srt) (key : Rec → Nat) (D : List (List Rec)) :
    (sortBy srt key D).map List.length = D.map List.length := by
  unfold sortBy
  apply cut_map_length
  rw [(hS.perm key D.flatten).length_eq, List.length_flatten]

/-- A sorted list of numbers in `[o, o + n)` as runs. -/
theorem runs_eq {β : Type} (f : Nat → β) (l : List Nat) (o n : Nat) (hs : l.Pairwise (· ≤ ·)) (h : ∀ x ∈ l, o ≤ x ∧ x < o + n) :
    ((List.range n).flatMap fun j => List.replicate (l.count (o + j)) (f (o + j))) = l.map f := by
  have key : ((List.range n).flatMap fun j => List.replicate (l.count (o + j)) (o + j)) = l := by
    refine List.Perm.eq_of_pairwise (le := (· ≤ ·)) (fun a b _ _ h1 h2 => le_antisymm h1 h2) ?_ hs ?_
    · rw [List.pairwise_flatMap]
      refine ⟨fun j _ => by rw [List.pairwise_replicate]; right; exact le_refl _, ?_⟩
      refine List.pairwise_lt_range.imp fun {a b} hab => ?_
      intro x hx y hy
      rw [List.mem_replicate] at hx hy
      omega
    · rw [List.perm_iff_count]
      intro v
      rw [List.count_flatMap]
      have hc : ∀ j, (List.count v ∘ fun j => List.replicate (l.count (o + j)) (o + j)) j = if o + j = v then l.count v else 0 := by
        intro j
        simp only [Function.comp_apply, List.count_replicate]
        by_cases hj : o + j = v
        · subst hj; simp
        · simp [hj]
      rw [List.map_congr_left fun j _ => hc j]
      by_cases hv : o ≤ v ∧ v < o + n
      · have : ∀ m, ((List.range m).map fun j => if o + j = v then l.count v else 0).sum = if v < o + m then l.count v else 0 := by
          intro m
          induction m with
          | zero => simp; omega
          | succ m ih =>
            rw [List.range_succ, List.map_append, List.sum_append, ih]
            simp only [List.map_cons, List.map_nil, List.sum_cons, List.sum_nil]
            split <;> split <;> split <;> omega
        rw [this, if_pos hv.2]
      · have h0 : l.count v = 0 := by
          rw [List.count_eq_zero]; intro hm; exact hv (h v hm)
        simp [h0]
  conv_rhs => rw [← key]
  rw [List.map_flatMap]
  congr 1
  funext j
  rw [List.map_replicate]

theorem weightOf_items (l : List Nat) (v : Nat) : NBK.Dist.weightOf (l.map fun x => (x, 1)) v = l.count v := by
  unfold NBK.Dist.weightOf
  induction l with
  | nil => rfl
  | cons a l ih =>
    rw [List.map_cons, List.filter_cons, List.count_cons]
    by_cases h : a = v
    · rw [if_pos (by simpa using h), List.map_cons, List.sum_cons, ih, if_pos (by simpa using h)]; omega
    · rw [if_neg (by simpa using h), ih, if_neg (by simpa using h)]; omega

/-- First bin of a rank. -/
def binLo (label : List (List Nat)) (r : Nat) (l : List Nat) : Nat :=
  NBK.Dist.binOffset (items label) r (l.map fun x => (x, 1))

/-- Number of bins of a rank. -/
def binN (label : List (List Nat)) (r : Nat) (l : List Nat) : Nat :=
  match l.getLast? with
  | none => 0
  | some z => z + 1 - binLo label r l

theorem items_flatten (label : List (List Nat)) : (items label).flatten = label.flatten.map fun x => (x, 1) := by
  unfold items; rw [List.map_flatten]

theorem le_getLast (l : List Nat) (z : Nat) (hs : l.Pairwise (· ≤ ·)) (hz : l.getLast? = some z) : ∀ x ∈ l, x ≤ z := by
  intro x hx
  obtain ⟨ys, rfl⟩ := List.getLast?_eq_some_iff.mp hz
  rw [List.pairwise_append] at hs
  rcases List.mem_append.mp hx with h | h
  · exact hs.2.2 x h z (by simp)
  · simp only [List.mem_cons, List.not_mem_nil, or_false] at h; omega

theorem countBins_eq (label : List (List Nat)) (hs : label.flatten.Pairwise (· ≤ ·)) :
    countBins label = .ok
      (label.mapIdx fun r l => (List.range (binN label r l)).map fun j => label.flatten.count (binLo label r l + j),
       label.mapIdx fun r l => (List.range (binN label r l)).map fun j => l.count (binLo label r l + j)) ∧
    ∀ (r : Nat) (l : List Nat), label[r]? = some l →
      (∀ x ∈ l, binLo label r l ≤ x ∧ x < binLo label r l + binN label r l) ∧
      ∀ j < binN label r l, ∃ z ∈ l, binLo label r l + j ≤ z := by
  have hs' : (items label).flatten.Pairwise fun x y => x.1 ≤ y.1 := by
    rw [items_flatten, List.pairwise_map]; exact hs
  have hget : ∀ (r : Nat) (l : List Nat), label[r]? = some l → (items label)[r]? = some (l.map fun x => (x, 1)) := by
    intro r l h; unfold items; rw [List.getElem?_map, h]; rfl
  have hlo : ∀ (r : Nat) (l : List Nat), label[r]? = some l → ∀ x ∈ l, binLo label r l ≤ x := by
    intro r l h x hx
    exact NBK.Dist.offset_le (NBK.Dist.around hs' (hget r l h)) (x, 1) (by simpa using hx)
  have hls : ∀ (r : Nat) (l : List Nat), label[r]? = some l → l.Pairwise (· ≤ ·) := by
    intro r l h
    exact (List.pairwise_flatten.mp hs).1 l (List.mem_of_getElem? h)
  constructor
  · obtain ⟨outs, ho, hlen, hspec⟩ := NBK.Dist.bincount_shared (items label) hs'
    have hNL : ((items label).mapIdx fun r l => localCounts (items label) r l).mapM id =
        some (label.mapIdx fun r l => (List.range (binN label r l)).map fun j => l.count (binLo label r l + j)) := by
      have e : ((items label).mapIdx fun r l => localCounts (items label) r l) =
          (label.mapIdx fun r l => (List.range (binN label r l)).map fun j => l.count (binLo label r l + j)).map some := by
        apply List.ext_getElem?
        intro r
        rw [List.getElem?_mapIdx, List.getElem?_map, List.getElem?_mapIdx]
        cases h : label[r]? with
        | none => unfold items; rw [List.getElem?_map, h]; rfl
        | some l =>
          rw [hget r l h, Option.map_some, Option.map_some, Option.map_some,
            NBK.Dist.localCounts_eq (NBK.Dist.around hs' (hget r l h))]
          congr 2
          unfold NBK.Dist.bins binN
          rw [List.getLast?_map]
          cases hz : l.getLast? with
          | none => rfl
          | some z =>
            simp only [Option.map_some]
            apply List.map_congr_left
            intro j _
            rw [NBK.Dist.cnt_eq_weightOf, weightOf_items]
            rfl
      rw [e, List.mapM_map]
      simp only [Function.comp_def, id_eq]
      exact List.mapM_pure (m := Option) (f := id) |>.trans (by simp)
    have hN : outs = label.mapIdx fun r l => (List.range (binN label r l)).map fun j => label.flatten.count (binLo label r l + j) := by
      apply List.ext_getElem?
      intro r
      rw [List.getElem?_mapIdx]
      cases h : label[r]? with
      | none =>
        rw [List.getElem?_eq_none_iff] at h
        rw [List.getElem?_eq_none]; rfl
        rw [hlen]; unfold items; simpa using h
      | some l =>
        have hr : r < outs.length := by
          rw [hlen]; obtain ⟨h', -⟩ := List.getElem?_eq_some_iff.mp (hget r l h); exact h'
        rw [List.getElem?_eq_getElem hr, Option.map_some]
        congr 1
        obtain ⟨h1, h2⟩ := hspec r _ _ (hget r l h) (List.getElem?_eq_getElem hr)
        cases l with
        | nil => rw [h1 rfl]; simp [binN]
        | cons a l =>
          obtain ⟨z, hz⟩ : ∃ z, (a :: l).getLast? = some z := ⟨_, List.getLast?_eq_some_getLast (by simp)⟩
          obtain ⟨-, h3⟩ := h2 (a, 1) (z, 1) (by simp) (by rw [List.getLast?_map, hz]; rfl)
          rw [h3, ← NBK.Dist.binOffset_eq_firstBin (items label) hs' r _ (hget r _ h) (a, 1) (by simp)]
          unfold binN
          rw [hz]
          apply List.map_congr_left
          intro j _
          rw [items_flatten, weightOf_items]
          rfl
    unfold countBins
    rw [ho, hNL, hN]
  · intro r l h
    unfold binN
    cases hz : l.getLast? with
    | none =>
      have : l = [] := by simpa using hz
      subst this; simp
    | some z =>
      have hzl := List.mem_of_getLast? hz
      have hlz := hlo r l h z hzl
      refine ⟨fun x hx => ⟨hlo r l h x hx, ?_⟩, fun j hj => ⟨z, hzl, ?_⟩⟩
      · have := le_getLast l z (hls r l h) hz x hx
        dsimp only; omega
      · dsimp only at hj; omega

theorem zip_map_self {α β γ : Type} (g : α → β) (F : α × β → γ) (l : List α) :
    (l.zip (l.map g)).map F = l.map fun a => F (a, g a) := by
  induction l with
  | nil => rfl
  | cons a l ih => simp [ih]

theorem getElem?_zip_some {α β : Type} (A : List α) (B : List β) (r : Nat) (a : α) (b : β) (ha : A[r]? = some a) (hb : B[r]? = some b) :
    (A.zip B)[r]? = some (a, b) := by
  rw [List.getElem?_zip_eq_some]; exact ⟨ha, hb⟩

/-- The new `fofid` of label `v`. -/
def newId (thresh : Nat) (all : List Nat) (v : Nat) : Nat := if all.count v ≤ thresh then 0 else v + 1

theorem maskAll_eq (thresh : Nat) (label : List (List Nat)) (hs : label.flatten.Pairwise (· ≤ ·)) :
    (((label.mapIdx fun r l => (List.range (binN label r l)).map fun j => label.flatten.count (binLo label r l + j)).map
        fun n => n.map fun c => decide (c ≤ thresh)).zip
      (label.mapIdx fun r l => (List.range (binN label r l)).map fun j => l.count (binLo label r l + j))).mapM
        (fun a => npRepeat a.1 a.2) =
    .ok (label.map fun l => l.map fun v => decide (label.flatten.count v ≤ thresh)) := by
  obtain ⟨-, hb⟩ := countBins_eq label hs
  apply mapM_index
  · simp
  · intro r a b ha hb'
    rw [List.getElem?_map] at hb'
    cases hl : label[r]? with
    | none => rw [hl] at hb'; cases hb'
    | some l =>
      rw [hl, Option.map_some, Option.some.injEq] at hb'
      rw [getElem?_zip_some _ _ r
        ((List.range (binN label r l)).map fun j => decide (label.flatten.count (binLo label r l + j) ≤ thresh))
        ((List.range (binN label r l)).map fun j => l.count (binLo label r l + j))
        (by rw [List.getElem?_map, List.getElem?_mapIdx, hl]; simp [Function.comp_def])
        (by rw [List.getElem?_mapIdx, hl]; rfl), Option.some.injEq] at ha
      subst ha hb'
      unfold npRepeat
      rw [if_pos (by simp)]
      congr 1
      rw [List.zip_map', List.flatMap_map]
      exact runs_eq (fun v => decide (label.flatten.count v ≤ thresh)) l _ _
        ((List.pairwise_flatten.mp hs).1 l (List.mem_of_getElem? hl)) (hb r l hl).1

theorem newAll_eq (thresh : Nat) (label : List (List Nat)) :
    (label.zip (label.map fun l => l.map fun v => decide (label.flatten.count v ≤ thresh))).mapM
      (fun a => maskLabels a.1 a.2) = .ok (label.map fun l => l.map (newId thresh label.flatten)) := by
  apply mapM_index
  · simp
  · intro r a b ha hb
    rw [List.getElem?_map] at hb
    cases hl : label[r]? with
    | none => rw [hl] at hb; cases hb
    | some l =>
      rw [hl, Option.map_some, Option.some.injEq] at hb
      rw [getElem?_zip_some _ _ r l _ hl (by rw [List.getElem?_map, hl]; rfl), Option.some.injEq] at ha
      subst ha hb
      unfold maskLabels
      rw [if_pos (by simp), zip_map_self]
      congr 1
      apply List.map_congr_left
      intro v _
      simp only [newId, decide_eq_true_eq]

theorem any_small_iff (thresh : Nat) (label : List (List Nat)) (hs : label.flatten.Pairwise (· ≤ ·))
    (hd : ∀ x ∈ label.flatten, ∀ y ≤ x, y ∈ label.flatten) :
    (((label.mapIdx fun r l => (List.range (binN label r l)).map fun j => label.flatten.count (binLo label r l + j)).map
        fun n => n.map fun c => decide (c ≤ thresh)).any fun s => s.any id) = true ↔
      ∃ v ∈ label.flatten, label.flatten.count v ≤ thresh := by
  obtain ⟨-, hb⟩ := countBins_eq label hs
  rw [List.any_eq_true]
  constructor
  · rintro ⟨s, hs', ht⟩
    obtain ⟨n, hn, rfl⟩ := List.mem_map.mp hs'
    obtain ⟨r, hr, rfl⟩ := List.getElem_of_mem hn
    rw [List.length_mapIdx] at hr
    simp only [List.getElem_mapIdx, List.any_map, List.any_eq_true, List.mem_range, Function.comp_apply, id_eq,
      decide_eq_true_eq] at ht
    obtain ⟨j, hj, hc⟩ := ht
    obtain ⟨z, hz, hzj⟩ := (hb r label[r] (List.getElem?_eq_getElem hr)).2 j hj
    exact ⟨_, hd z (List.mem_flatten.mpr ⟨label[r], List.getElem_mem hr, hz⟩) _ hzj, hc⟩
  · rintro ⟨v, hv, hc⟩
    obtain ⟨l, hl, hvl⟩ := List.mem_flatten.mp hv
    obtain ⟨r, hr, rfl⟩ := List.getElem_of_mem hl
    obtain ⟨h1, h2⟩ := (hb r label[r] (List.getElem?_eq_getElem hr)).1 v hvl
    refine ⟨_, List.mem_map.mpr ⟨_, List.mem_iff_getElem.mpr ⟨r, by simpa using hr, rfl⟩, rfl⟩, ?_⟩
    simp only [List.getElem_mapIdx, List.any_map, List.any_eq_true, List.mem_range, Function.comp_apply, id_eq,
      decide_eq_true_eq]
    exact ⟨v - binLo label r label[r], by omega, by rw [Nat.add_sub_cancel' h1]; exact hc⟩

theorem count_map_injOn (f : Nat → Nat) (l : List Nat) (hf : ∀ x ∈ l, ∀ y ∈ l, f x = f y → x = y) (x : Nat) (hx : x ∈ l) :
    (l.map f).count (f x) = l.count x := by
  rw [List.count, List.countP_map, List.count]
  apply List.countP_congr
  intro y hy
  simp only [Function.comp_apply, beq_iff_eq]
  exact ⟨fun h => hf y hy x hx h, fun h => by rw [h]⟩

/-- What `dropSmall` does: `rel` is 0 on the groups with at most `thresh` members, and increasing and positive on the others. -/
theorem dropSmall_eq (thresh : Nat) (D : List (List Rec)) (hs : D.flatten.Pairwise fun a b => a.2 ≤ b.2) :
    ∃ (rel : Nat → Nat) (small : List (List Bool)),
      dropSmall thresh D = .ok (D.map fun d => d.map fun q => (q.1, rel q.2), small) ∧
      (∀ g ∈ D.flatten.map Prod.snd, rel g = 0 ↔ (D.flatten.map Prod.snd).count g ≤ thresh) ∧
      (∀ g ∈ D.flatten.map Prod.snd, ∀ g' ∈ D.flatten.map Prod.snd, rel g = rel g' → rel g = 0 ∨ g = g') ∧
      ((small.any fun s => s.any id) = true ↔ ∃ g ∈ D.flatten.map Prod.snd, (D.flatten.map Prod.snd).count g ≤ thresh) := by
  have hfl : (D.map fun d => d.map Prod.snd).flatten = D.flatten.map Prod.snd := by rw [List.map_flatten]
  obtain ⟨rk, h1, h2, h3⟩ := NBK.Dist.uniqueLabels_dense (D.map fun d => d.map Prod.snd) (by
    rw [hfl, List.pairwise_map]; exact hs)
  rw [hfl] at h2 h3
  obtain ⟨label, hlabel⟩ : ∃ label, label = (D.map fun d => d.map Prod.snd).map (List.map rk) := ⟨_, rfl⟩
  have hlf : label.flatten = (D.flatten.map Prod.snd).map rk := by
    rw [hlabel, ← List.map_flatten, hfl]
  have hls : label.flatten.Pairwise (· ≤ ·) := by
    rw [hlf, List.map_map, List.pairwise_map]
    refine List.Pairwise.imp_of_mem ?_ hs
    intro a b ha hb hab
    have e := h2 a.2 (List.mem_map_of_mem ha) b.2 (List.mem_map_of_mem hb)
    rcases Nat.lt_or_eq_of_le hab with h | h
    · exact Nat.le_of_lt (e.2.mpr h)
    · exact Nat.le_of_eq (e.1.mpr h)
  have hdense : ∀ x ∈ label.flatten, ∀ y ≤ x, y ∈ label.flatten := by
    intro x hx y hy
    rw [hlf, List.mem_map] at hx ⊢
    exact (h3 y).mpr (lt_of_le_of_lt hy ((h3 x).mp hx))
  have hinj : ∀ g ∈ D.flatten.map Prod.snd, ∀ g' ∈ D.flatten.map Prod.snd, rk g = rk g' → g = g' :=
    fun g hg g' hg' e => (h2 g hg g' hg').1.mp e
  have hcount : ∀ g ∈ D.flatten.map Prod.snd, label.flatten.count (rk g) = (D.flatten.map Prod.snd).count g := by
    intro g hg
    rw [hlf]
    exact count_map_injOn rk _ hinj g hg
  refine ⟨fun g => newId thresh label.flatten (rk g),
    (label.mapIdx fun r l => (List.range (binN label r l)).map fun j => label.flatten.count (binLo label r l + j)).map
        fun n => n.map fun c => decide (c ≤ thresh), ?_, ?_, ?_, ?_⟩
  · unfold dropSmall
    simp only [h1, ← hlabel]
    rw [(countBins_eq label hls).1]
    simp only [bind, Except.bind]
    rw [maskAll_eq thresh label hls]
    simp only [bind, Except.bind]
    rw [newAll_eq thresh label]
    simp only [pure, Except.pure]
    congr 2
    rw [hlabel, List.map_map, List.map_map, zip_map_self]
    apply List.map_congr_left
    intro d _
    simp only [Function.comp_apply, List.map_map]
    rw [zip_map_self]
    simp [Function.comp_def, hlabel]
  · intro g hg
    simp only [newId, hcount g hg]
    split
    · rename_i h; exact ⟨fun _ => h, fun _ => rfl⟩
    · rename_i h; exact ⟨fun e => by omega, fun h' => absurd h' h⟩
  · intro g hg g' hg' e
    simp only [newId] at e ⊢
    by_cases h : label.flatten.count (rk g) ≤ thresh
    · left; rw [if_pos h]
    · right
      rw [if_neg h] at e
      by_cases h' : label.flatten.count (rk g') ≤ thresh
      · rw [if_pos h'] at e; omega
      · rw [if_neg h'] at e; exact hinj g hg g' hg' (by omega)
  · rw [any_small_iff thresh label hls hdense]
    constructor
    · rintro ⟨v, hv, hc⟩
      rw [hlf, List.mem_map] at hv
      obtain ⟨g, hg, rfl⟩ := hv
      exact ⟨g, hg, by rw [← hcount g hg]; exact hc⟩
    · rintro ⟨g, hg, hc⟩
      exact ⟨rk g, by rw [hlf]; exact List.mem_map_of_mem hg, by rw [hcount g hg]; exact hc⟩

/-- What `renumber` does on sorted rows. -/
theorem renumber_eq (anysmall : Bool) (D : List (List Rec)) (hs : D.flatten.Pairwise fun a b => a.2 ≤ b.2) :
    ∃ rk : Nat → Nat, renumber anysmall D = D.map (fun d => d.map fun q => (q.1, if anysmall then rk q.2 else rk q.2 + 1)) ∧
      (∀ x ∈ D.flatten.map Prod.snd, ∀ y ∈ D.flatten.map Prod.snd, (rk x = rk y ↔ x = y) ∧ (rk x < rk y ↔ x < y)) ∧
      ∃ K, ∀ k, (∃ x ∈ D.flatten.map Prod.snd, rk x = k) ↔ k < K := by
  have hfl : (D.map fun d => d.map Prod.snd).flatten = D.flatten.map Prod.snd := by rw [List.map_flatten]
  obtain ⟨rk, h1, h2, h3⟩ := NBK.Dist.uniqueLabels_dense (D.map fun d => d.map Prod.snd) (by
    rw [hfl, List.pairwise_map]; exact hs)
  rw [hfl] at h2 h3
  refine ⟨rk, ?_, h2, _, h3⟩
  unfold renumber
  rw [h1, List.map_map, zip_map_self]
  apply List.map_congr_left
  intro d _
  simp only [Function.comp_apply, List.map_map]
  rw [zip_map_self]
  rfl

theorem initial_flatten (minid : List (List Nat)) :
    (initial minid).flatten = minid.flatten.mapIdx fun i x => (i, x) := by
  have key : ∀ (k : Nat) (M : List (List Nat)),
      (M.mapIdx fun r l => l.mapIdx fun i x => (k + ((M.map List.length).take r).sum + i, x)).flatten =
        M.flatten.mapIdx fun i x => (k + i, x) := by
    intro k M
    induction M generalizing k with
    | nil => rfl
    | cons l M ih =>
      rw [List.mapIdx_cons, List.flatten_cons, List.flatten_cons, List.mapIdx_append]
      congr 1
      have := ih (k + l.length)
      simp only [List.map_cons, List.take_succ_cons, List.sum_cons] at this ⊢
      simp only [← Nat.add_assoc] at this ⊢
      rw [this]
      congr 1
      funext i x
      rw [Nat.add_assoc, Nat.add_assoc, Nat.add_comm l.length i]
  have := key 0 minid
  simpa [initial] using this

theorem initial_lengths (minid : List (List Nat)) : (initial minid).map List.length = minid.map List.length := by
  unfold initial
  apply List.ext_getElem
  · simp
  · intro r h1 h2; simp

/-- Sorting back by the original index. -/
theorem sort_back {srt : (Rec → Nat) → List Rec → List Rec} (hS : IsSort srt) (F : List Nat) (h : Nat → Nat) (l : List Rec)
    (hp : l.Perm (F.mapIdx fun i x => (i, h x))) : (srt Prod.fst l) = F.mapIdx fun i x => (i, h x) := by
  have hinj : ∀ a ∈ F.mapIdx fun i x => (i, h x), ∀ b ∈ F.mapIdx fun i x => (i, h x), a.1 = b.1 → a = b := by
    intro a ha b hb e
    obtain ⟨i, hi, rfl⟩ := List.mem_mapIdx.mp ha
    obtain ⟨j, hj, rfl⟩ := List.mem_mapIdx.mp hb
    simp only at e; subst e; rfl
  have hp' : (srt Prod.fst l).Perm (F.mapIdx fun i x => (i, h x)) := (hS.perm _ _).trans hp
  refine List.Perm.eq_of_pairwise (le := fun a b : Rec => a.1 ≤ b.1) ?_ (hS.sorted _ _) ?_ hp'
  · intro a b ha hb h1 h2
    exact hinj a (hp'.mem_iff.mp ha) b hb (le_antisymm h1 h2)
  · rw [List.pairwise_iff_getElem]
    intro i j hi hj hij
    simp; omega

theorem mapIdx_map {α β γ : Type} (f : Nat → α → β) (g : β → γ) (l : List α) :
    (l.mapIdx f).map g = l.mapIdx fun i x => g (f i x) := by
  apply List.ext_getElem
  · simp
  · intro i h1 h2; simp

theorem mapIdx_map_snd (F : List Nat) (h : Nat → Nat) : (F.mapIdx fun i x => (i, h x)).map Prod.snd = F.map h := by
  apply List.ext_getElem
  · simp
  · intro i h1 h2; simp

/-- Everything before the ordering by size: `bySize` gets the labels `h g`. -/
theorem assignLabels_pre {srt : (Rec → Nat) → List Rec → List Rec} (hS : IsSort srt) (argsort : List Nat → List Nat)
    (thresh : Nat) (minid : List (List Nat)) :
    ∃ h : Nat → Nat, assignLabels srt argsort thresh minid = bySize argsort (minid.map fun l => l.map h) ∧
      (∀ g ∈ minid.flatten, h g = 0 ↔ minid.flatten.count g ≤ thresh) ∧
      (∀ g ∈ minid.flatten, ∀ g' ∈ minid.flatten, h g = h g' → h g = 0 ∨ g = g') ∧
      ∃ K, ∀ v, (∃ g ∈ minid.flatten, h g = v ∧ v ≠ 0) ↔ 1 ≤ v ∧ v ≤ K := by
  obtain ⟨D1, hD1⟩ : ∃ D1, D1 = sortBy srt Prod.snd (initial minid) := ⟨_, rfl⟩
  have f1 : D1.flatten = srt Prod.snd (initial minid).flatten := by rw [hD1, sortBy_flatten hS]
  have l1 : D1.map List.length = minid.map List.length := by rw [hD1, sortBy_lengths hS, initial_lengths]
  have p1 : D1.flatten.Perm (minid.flatten.mapIdx fun i x => (i, x)) := by
    rw [f1, ← initial_flatten]; exact hS.perm _ _
  have q1 : (D1.flatten.map Prod.snd).Perm minid.flatten := by
    have e : (minid.flatten.mapIdx fun i x => (i, x)).map Prod.snd = minid.flatten :=
      (mapIdx_map_snd minid.flatten id).trans (List.map_id _)
    exact (p1.map Prod.snd).trans (by rw [e])
  obtain ⟨rel, small, e2, h20, h2i, h2s⟩ := dropSmall_eq thresh D1 (by rw [f1]; exact hS.sorted _ _)
  obtain ⟨D2, hD2⟩ : ∃ D2, D2 = sortBy srt Prod.snd (D1.map fun d => d.map fun q => (q.1, rel q.2)) := ⟨_, rfl⟩
  have f2 : D2.flatten = srt Prod.snd (D1.flatten.map fun q => (q.1, rel q.2)) := by
    rw [hD2, sortBy_flatten hS, List.map_flatten]
  have l2 : D2.map List.length = minid.map List.length := by
    rw [hD2, sortBy_lengths hS, ← l1, List.map_map]
    apply List.map_congr_left
    intro d _; simp
  have p2 : D2.flatten.Perm (minid.flatten.mapIdx fun i x => (i, rel x)) := by
    rw [f2]
    refine (hS.perm _ _).trans ((p1.map _).trans ?_)
    rw [mapIdx_map]
  have q2 : (D2.flatten.map Prod.snd).Perm (minid.flatten.map rel) := by
    have := p2.map Prod.snd
    rwa [mapIdx_map_snd minid.flatten rel] at this
  obtain ⟨rk, e3, h3, K, hK⟩ := renumber_eq (small.any fun s => s.any id) D2 (by rw [f2]; exact hS.sorted _ _)
  obtain ⟨h, hh⟩ : ∃ h : Nat → Nat, h = fun g => if (small.any fun s => s.any id) then rk (rel g) else rk (rel g) + 1 := ⟨_, rfl⟩
  have hmem : ∀ g ∈ minid.flatten, rel g ∈ D2.flatten.map Prod.snd := by
    intro g hg; exact q2.mem_iff.mpr (List.mem_map_of_mem hg)
  have hmem1 : ∀ g, g ∈ minid.flatten ↔ g ∈ D1.flatten.map Prod.snd := fun g => q1.mem_iff.symm
  have hcnt : ∀ g, (D1.flatten.map Prod.snd).count g = minid.flatten.count g := fun g => q1.count_eq g
  have h20' : ∀ g ∈ minid.flatten, rel g = 0 ↔ minid.flatten.count g ≤ thresh := by
    intro g hg; rw [← hcnt]; exact h20 g ((hmem1 g).mp hg)
  have hs' : (small.any fun s => s.any id) = true ↔ ∃ g ∈ minid.flatten, minid.flatten.count g ≤ thresh := by
    rw [h2s]
    constructor
    · rintro ⟨g, hg, hc⟩; exact ⟨g, (hmem1 g).mpr hg, by rw [← hcnt]; exact hc⟩
    · rintro ⟨g, hg, hc⟩; exact ⟨g, (hmem1 g).mp hg, by rw [hcnt]; exact hc⟩
  have hzero : ∀ g ∈ minid.flatten, h g = 0 ↔ minid.flatten.count g ≤ thresh := by
    intro g hg
    rw [hh]
    by_cases hsm : (small.any fun s => s.any id) = true
    · simp only [hsm, if_true]
      obtain ⟨g0, hg0, hc0⟩ := hs'.mp hsm
      have hr0 := (h20' g0 hg0).mpr hc0
      have hm0 := hmem g0 hg0
      rw [hr0] at hm0
      have hKpos : 0 < K := by have := (hK (rk 0)).mp ⟨0, hm0, rfl⟩; omega
      obtain ⟨x, hx, hx0⟩ := (hK 0).mpr hKpos
      have hrk0 : rk 0 = 0 := by
        rcases Nat.eq_zero_or_pos x with e | e
        · rw [e] at hx0; exact hx0
        · have := (h3 0 hm0 x hx).2.mpr e; omega
      rw [← h20' g hg, ← (h3 (rel g) (hmem g hg) 0 hm0).1, hrk0]
    · simp only [hsm, if_false, Bool.false_eq_true]
      constructor
      · intro h; omega
      · intro hc; exact absurd (hs'.mpr ⟨g, hg, hc⟩) hsm
  refine ⟨h, ?_, hzero, ?_, ?_⟩
  · unfold assignLabels
    simp only [← hD1, e2, bind, Except.bind, ← hD2, e3]
    congr 1
    have p3 : (D2.map fun d => d.map fun q => (q.1, if (small.any fun s => s.any id) = true then rk q.2 else rk q.2 + 1)).flatten.Perm
        (minid.flatten.mapIdx fun i x => (i, h x)) := by
      rw [← List.map_flatten]
      refine (p2.map _).trans ?_
      rw [mapIdx_map, hh]
    unfold sortBy
    rw [sort_back hS minid.flatten h _ p3]
    have hl : (D2.map fun d => d.map fun q => (q.1, if (small.any fun s => s.any id) = true then rk q.2 else rk q.2 + 1)).map
        List.length = minid.map List.length := by
      rw [← l2, List.map_map]
      apply List.map_congr_left
      intro d _; simp
    rw [hl]
    have := cut_map (Prod.snd : Rec → Nat) (minid.map List.length) (minid.flatten.mapIdx fun i x => (i, h x))
    rw [mapIdx_map_snd, cut_map, cut_flatten_self] at this
    exact this.symm
  · intro g hg g' hg' e
    have e' : rk (rel g) = rk (rel g') := by
      rw [hh] at e
      by_cases hsm : (small.any fun s => s.any id) = true
      · simpa only [hsm, if_true] using e
      · simp only [hsm, if_false, Bool.false_eq_true] at e; omega
    have e'' := (h3 _ (hmem g hg) _ (hmem g' hg')).1.mp e'
    rcases h2i g ((hmem1 g).mp hg) g' ((hmem1 g').mp hg') e'' with h0 | h0
    · left; rw [hzero g hg, ← h20' g hg]; exact h0
    · right; exact h0
  · have hval : ∀ k, (∃ g ∈ minid.flatten, rk (rel g) = k) ↔ k < K := by
      intro k
      rw [← hK k]
      constructor
      · rintro ⟨g, hg, e⟩; exact ⟨rel g, hmem g hg, e⟩
      · rintro ⟨x, hx, e⟩
        obtain ⟨g, hg, rfl⟩ := List.mem_map.mp (q2.mem_iff.mp hx)
        exact ⟨g, hg, e⟩
    by_cases hsm : (small.any fun s => s.any id) = true
    · refine ⟨K - 1, fun v => ?_⟩
      rw [hh]
      simp only [hsm, if_true]
      constructor
      · rintro ⟨g, hg, e, h0⟩
        have := (hval v).mp ⟨g, hg, e⟩
        omega
      · rintro ⟨h1, h2⟩
        obtain ⟨g, hg, e⟩ := (hval v).mpr (by omega)
        exact ⟨g, hg, e, by omega⟩
    · refine ⟨K, fun v => ?_⟩
      rw [hh]
      simp only [hsm, if_false, Bool.false_eq_true]
      constructor
      · rintro ⟨g, hg, e, h0⟩
        have := (hval (v - 1)).mp ⟨g, hg, by omega⟩
        omega
      · rintro ⟨h1, h2⟩
        obtain ⟨g, hg, e⟩ := (hval (v - 1)).mpr (by omega)
        exact ⟨g, hg, by omega, by omega⟩

end NBK.Fof
