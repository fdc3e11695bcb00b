import Verif.Fiber.GroupLemmas
import Mathlib.Data.List.Perm.Subperm

/-!
# Fiber assignment: collision-free (C41), and in which sense it is maximal (C42)
-/
set_option linter.unusedSimpArgs false
namespace NBK.Fiber
open NBK.Comm
variable {α : Type} [LinearOrder α]

/-- The local sort by label, with any order of the objects of a group. -/
structure IsOrd (ord : List (Nat × Nat) → List (Nat × Nat)) : Prop where
  perm : ∀ l, (ord l).Perm l
  sorted : ∀ l, (ord l).Pairwise fun a b => a.2 ≤ b.2

theorem mem_indexed (L : List Nat) (i g : Nat) : (i, g) ∈ (L.mapIdx fun i x => (i, x)) ↔ L[i]? = some g := by
  rw [List.mem_iff_getElem?]
  constructor
  · rintro ⟨k, hk⟩
    rw [List.getElem?_mapIdx] at hk
    obtain ⟨x, hx, e⟩ := Option.map_eq_some_iff.mp hk
    obtain ⟨rfl, rfl⟩ := Prod.mk.inj e
    exact hx
  · intro h
    exact ⟨i, by rw [List.getElem?_mapIdx, h]; rfl⟩

/-- What the distributed assignment returns: for each object in a group a function of its group only. -/
theorem assignFibers_eq (dist : Nat → Nat → α) (R : α) (which : Nat → Bool) (pick : Nat → Nat → List Nat → Nat)
    (hp : ∀ g, IsPick (pick g)) (ord : List (Nat × Nat) → List (Nat × Nat)) (ho : IsOrd ord) (labels : List (List Nat))
    (hg : ∀ (i g : Nat), labels.flatten[i]? = some g → g ≠ 0 → ∃ j : Nat, j ≠ i ∧ labels.flatten[j]? = some g) :
    ∃ (col : Nat → Nat → Bool) (nb : Nat → Nat → Int),
      (∀ g ∈ labels.flatten, g ≠ 0 → ∃ index : List Nat, (∀ i : Nat, i ∈ index ↔ labels.flatten[i]? = some g) ∧
        GroupOk dist R index (col g) (nb g)) ∧
      ∃ out, assignFibers dist R which pick ord labels = .ok out ∧ out.map List.length = labels.map List.length ∧
        out.flatten = labels.flatten.mapIdx fun i x => if x = 0 then (some false, some (-1)) else (some (col x i), some (nb x i)) := by
  obtain ⟨P, hP⟩ : ∃ P, P = pig labels := ⟨_, rfl⟩
  have hPf : P.flatten = ((labels.flatten.mapIdx fun i x => (i, x)).filter fun p => decide (p.2 ≠ 0)) := by rw [hP, pig_flatten]
  have hPmem : ∀ i g, (i, g) ∈ P.flatten ↔ labels.flatten[i]? = some g ∧ g ≠ 0 := by
    intro i g
    rw [hPf, List.mem_filter, mem_indexed]; simp
  have hPidx : P.flatten.Pairwise fun a b => a.1 < b.1 := by
    rw [hPf]
    refine List.Pairwise.filter _ ?_
    rw [List.pairwise_iff_getElem]
    intro i j hi hj hij
    simpa using hij
  obtain ⟨rows, hrows⟩ : ∃ rows : Nat → List (Nat × Nat), rows = fun r => ord (P.flatten.filter fun p => p.2 % labels.length = r) := ⟨_, rfl⟩
  have hrp : ∀ r, (rows r).Perm (P.flatten.filter fun p => p.2 % labels.length = r) := by
    intro r; rw [hrows]; exact ho.perm _
  have hrs : ∀ r, (rows r).Pairwise fun a b => a.2 ≤ b.2 := by intro r; rw [hrows]; exact ho.sorted _
  obtain ⟨S, hS⟩ : ∃ S : Nat → List Nat, S = fun g => ((rows (g % labels.length)).filter fun p => p.2 = g).map Prod.fst := ⟨_, rfl⟩
  have hSp : ∀ g, (S g).Perm ((P.flatten.filter fun p => p.2 = g).map Prod.fst) := by
    intro g
    rw [hS]
    refine List.Perm.map _ (((hrp _).filter _).trans ?_)
    rw [List.filter_filter]
    refine List.Perm.of_eq (List.filter_congr ?_)
    intro p _
    by_cases e : p.2 = g <;> simp [e]
  have hSmem : ∀ g ≠ 0, ∀ i : Nat, i ∈ S g ↔ labels.flatten[i]? = some g := by
    intro g hg0 i
    rw [(hSp g).mem_iff, List.mem_map]
    constructor
    · rintro ⟨⟨a, b⟩, hab, rfl⟩
      obtain ⟨h1, h2⟩ := List.mem_filter.mp hab
      have : b = g := by simpa using h2
      subst this
      exact ((hPmem a b).mp h1).1
    · intro h
      exact ⟨(i, g), List.mem_filter.mpr ⟨(hPmem i g).mpr ⟨h, hg0⟩, by simp⟩, rfl⟩
  have hSn : ∀ g, (S g).Nodup := by
    intro g
    rw [(hSp g).nodup_iff]
    have : (P.flatten.map Prod.fst).Nodup := by
      rw [List.Nodup, List.pairwise_map]
      exact hPidx.imp fun h => by omega
    exact this.sublist (List.filter_sublist.map _)
  have hex : ∀ g, ∃ (col : Nat → Bool) (nb : Nat → Int), g ∈ labels.flatten → g ≠ 0 → GroupOk dist R (S g) col nb ∧
      ∀ old, groupRes dist R (which g) (pick g) (S g) old = .ok ((S g).map fun i => (some (col i), some (nb i))) := by
    intro g
    by_cases hgc : g ∈ labels.flatten ∧ g ≠ 0
    · obtain ⟨hgm, hg0⟩ := hgc
      obtain ⟨i, hi⟩ := List.mem_iff_getElem?.mp hgm
      obtain ⟨j, hji, hj⟩ := hg i g hi hg0
      have h2 : 2 ≤ (S g).length := by
        have h1 := (hSmem g hg0 i).mpr hi
        have h2 := (hSmem g hg0 j).mpr hj
        match hS' : S g, h1, h2 with
        | [a], h1, h2 => simp at h1 h2; omega
        | a :: b :: l, _, _ => simp
      obtain ⟨col, nb, h⟩ := groupRes_ok dist R (which g) (pick g) (hp g) (S g) (hSn g) h2
      exact ⟨col, nb, fun _ _ => h⟩
    · exact ⟨fun _ => false, fun _ => 0, fun h1 h2 => absurd ⟨h1, h2⟩ hgc⟩
  choose col nb hcn using hex
  refine ⟨col, nb, fun g hgm hg0 => ⟨S g, hSmem g hg0, (hcn g hgm hg0).1⟩, ?_⟩
  obtain ⟨F, hF⟩ : ∃ F : Nat → Nat → Res, F = fun g i => (some (col g i), some (nb g i)) := ⟨_, rfl⟩
  have hrank : ∀ r, rankRes dist R which pick (rows r) = .ok ((rows r).map fun p => F p.2 p.1) := by
    intro r
    refine rankRes_ok dist R which pick (rows r) F (hrs r) ?_
    intro g hgm old
    obtain ⟨⟨i, g'⟩, hig, rfl⟩ := List.mem_map.mp hgm
    have h1 := (hrp r).mem_iff.mp hig
    obtain ⟨h1, h2⟩ := List.mem_filter.mp h1
    have h2 : g' % labels.length = r := by simpa using h2
    obtain ⟨h3, h4⟩ := (hPmem i g').mp h1
    have hc := (hcn g' (List.mem_of_getElem? h3) h4).2 old
    have e : ((rows r).filter fun p => decide (p.2 = g')).map Prod.fst = S g' := by rw [hS]; dsimp only; rw [h2]
    dsimp only
    rw [e, hc, hF]
  have hall : (((List.range labels.length).map rows).zip ((List.range labels.length).map fun r => (rows r).map fun p => F p.2 p.1)).flatMap
      (fun a => (a.1.map Prod.fst).zip a.2) = ((List.range labels.length).flatMap rows).map fun p => (p.1, F p.2 p.1) := by
    rw [List.zip_map', List.flatMap_map, List.map_flatMap]
    unfold List.flatMap
    congr 1
    apply List.map_congr_left
    intro r _
    exact List.zip_map' ..
  have hallp : (((List.range labels.length).flatMap rows).map fun p => (p.1, F p.2 p.1)).Perm (P.flatten.map fun p => (p.1, F p.2 p.1)) := by
    refine List.Perm.map _ ?_
    refine (List.Perm.flatMap_left (List.range labels.length) (g := fun r => P.flatten.filter fun p : Nat × Nat => decide (p.2 % labels.length = r))
      fun r _ => hrp r).trans (split_perm P.flatten (fun p => p.2 % labels.length) labels.length ?_)
    intro p hpm
    have : labels ≠ [] := by
      rintro rfl
      have := (hPmem p.1 p.2).mp hpm
      simp at this
    exact Nat.mod_lt _ (List.length_pos_iff.mpr this)
  have hsorted : ((((List.range labels.length).flatMap rows).map fun p => (p.1, F p.2 p.1)).mergeSort fun a b => decide (a.1 ≤ b.1)) =
      P.flatten.map fun p => (p.1, F p.2 p.1) := by
    have hs := List.pairwise_mergeSort (le := fun a b : Nat × Res => decide (a.1 ≤ b.1)) (by intro a b c; simp; omega) (by intro a b; simp; omega)
      (((List.range labels.length).flatMap rows).map fun p => (p.1, F p.2 p.1))
    have hlt : (P.flatten.map fun p => (p.1, F p.2 p.1)).Pairwise fun a b => a.1 < b.1 := by rw [List.pairwise_map]; exact hPidx
    refine List.Perm.eq_of_pairwise (le := fun a b : Nat × Res => a.1 ≤ b.1) ?_ (hs.imp fun h => by simpa using h)
      (hlt.imp fun h => Nat.le_of_lt h) ((List.mergeSort_perm _ _).trans hallp)
    intro a b ha hb h1 h2
    have ha' := (hallp.mem_iff.mp ((List.mergeSort_perm _ _).mem_iff.mp ha))
    obtain ⟨p, hpm, rfl⟩ := List.mem_map.mp ha'
    obtain ⟨q, hqm, rfl⟩ := List.mem_map.mp hb
    have e : p.1 = q.1 := Nat.le_antisymm h1 h2
    have e1 := ((hPmem p.1 p.2).mp hpm).1
    have e2 := ((hPmem q.1 q.2).mp hqm).1
    rw [e, e2] at e1
    rw [e, Option.some.inj e1]
  have hchunk : ∀ (r : Nat) (l : List Nat), labels[r]? = some l →
      place l ((((P.flatten.map fun p => (p.1, F p.2 p.1)).drop (((P.map List.length).take r).sum)).take ((P.map List.length).getD r 0)).map Prod.snd) =
        .ok (l.mapIdx fun i x => if x = 0 then (some false, some (-1)) else F x (((labels.map List.length).take r).sum + i)) := by
    intro r l hl
    have hPr := pig_getElem labels r l hl
    rw [← hP] at hPr
    rw [← place_ok F l]
    congr 1
    rw [← List.map_drop, ← List.map_take, List.map_map]
    have e1 : (P.map List.length).getD r 0 =
        ((l.mapIdx fun i x => (((labels.map List.length).take r).sum + i, x)).filter fun p => decide (p.2 ≠ 0)).length := by
      rw [List.getD_eq_getElem?_getD, List.getElem?_map, hPr]; rfl
    have e2 : ((P.map List.length).take r).sum = (P.take r).flatten.length := by rw [← List.map_take, List.length_flatten]
    rw [e1, e2, ← rank_window P r _ hPr]
    rfl
  refine ⟨labels.mapIdx fun r l => l.mapIdx fun i x => if x = 0 then (some false, some (-1)) else F x (((labels.map List.length).take r).sum + i), ?_, ?_, ?_⟩
  · unfold assignFibers
    dsimp only
    rw [← hP]
    have e1 : (List.range labels.length).map (fun r => ord (P.flatten.filter fun p => decide (p.2 % labels.length = r))) =
        (List.range labels.length).map rows := by rw [hrows]
    rw [e1, mapM_ok _ (fun l => l.map fun p => F p.2 p.1)]
    · simp only [bind, Except.bind]
      rw [List.map_map]
      have e2 : (List.range labels.length).map ((fun l : List (Nat × Nat) => l.map fun p => F p.2 p.1) ∘ rows) =
        (List.range labels.length).map fun r => (rows r).map fun p => F p.2 p.1 := rfl
      rw [e2, hall, hsorted]
      obtain ⟨Z, hZ⟩ : ∃ Z : List (List Res), Z = labels.mapIdx fun r l => l.mapIdx fun i x =>
        if x = 0 then (some false, some (-1)) else F x (((labels.map List.length).take r).sum + i) := ⟨_, rfl⟩
      rw [← hZ]
      have key : ∀ (X : List (List Nat × List (Nat × Res))) (Z : List (List Res)),
          List.Forall₂ (fun a z => place a.1 (a.2.map Prod.snd) = .ok z) X Z → (X.mapM fun lr => place lr.1 (lr.2.map Prod.snd)) = .ok Z := by
        intro X Z hXZ
        induction hXZ with
        | nil => rfl
        | cons h _ ih => rw [List.mapM_cons, h, ih]; rfl
      apply key
      rw [List.forall₂_iff_get, hZ]
      refine ⟨by simp, ?_⟩
      intro r h1 h2
      have hr : r < labels.length := by simpa using h1
      have := hchunk r _ (List.getElem?_eq_getElem hr)
      simpa using this
    · intro l hl
      obtain ⟨r, -, rfl⟩ := List.mem_map.mp hl
      exact hrank r
  · apply List.ext_getElem
    · simp
    · intro r h1 h2
      simp
  · have key : ∀ (ls : List (List Nat)) (o : Nat),
        (ls.mapIdx fun r l => l.mapIdx fun i x => if x = 0 then (some false, some (-1)) else F x (o + ((ls.map List.length).take r).sum + i)).flatten =
          ls.flatten.mapIdx fun i x => if x = 0 then (some false, some (-1)) else F x (o + i) := by
      intro ls
      induction ls with
      | nil => intro o; rfl
      | cons l ls ih =>
        intro o
        have h := ih (o + l.length)
        rw [List.mapIdx_cons, List.flatten_cons, List.flatten_cons, List.mapIdx_append]
        congr 1
        have e2 : (ls.flatten.mapIdx fun i x => if x = 0 then ((some false, some (-1)) : Res) else F x (o + (i + l.length))) =
            ls.flatten.mapIdx fun i x => if x = 0 then ((some false, some (-1)) : Res) else F x (o + l.length + i) := by
          congr 1; funext i x; rw [Nat.add_assoc, Nat.add_comm l.length i]
        rw [e2, ← h]
        congr 1
        congr 1
        funext r l'
        simp only [List.map_cons, List.take_succ_cons, List.sum_cons, Nat.add_assoc]
    have := key labels 0
    simp only [Nat.zero_add] at this
    rw [this, hF]

/-- **C41**: for every distribution of the objects over ranks, every geometry and every random choice, if the labels are those of
groups of at least two objects and colliding objects are in the same group: every object gets a flag; no two objects with a
fiber are within the collision radius; a collided object is given the nearest object with a fiber of its group; the
others get -1. -/
theorem fibers_spec (dist : Nat → Nat → α) (R : α) (which : Nat → Bool) (pick : Nat → Nat → List Nat → Nat)
    (hp : ∀ g, IsPick (pick g)) (ord : List (Nat × Nat) → List (Nat × Nat)) (ho : IsOrd ord) (labels : List (List Nat))
    (hg : ∀ (i g : Nat), labels.flatten[i]? = some g → g ≠ 0 → ∃ j : Nat, j ≠ i ∧ labels.flatten[j]? = some g)
    (hc : ∀ (i j : Nat), i < labels.flatten.length → j < labels.flatten.length → i ≠ j → dist i j ≤ R →
      ∃ g, g ≠ 0 ∧ labels.flatten[i]? = some g ∧ labels.flatten[j]? = some g) :
    ∃ (col : Nat → Bool) (nb : Nat → Int) (out : List (List Res)),
      assignFibers dist R which pick ord labels = .ok out ∧ out.map List.length = labels.map List.length ∧
      out.flatten = (List.range labels.flatten.length).map (fun i => (some (col i), some (nb i))) ∧
      (∀ i < labels.flatten.length, ∀ j < labels.flatten.length, i ≠ j → col i = false → col j = false → ¬ dist i j ≤ R) ∧
      (∀ i < labels.flatten.length, col i = true → ∃ j < labels.flatten.length, nb i = (j : Int) ∧ col j = false ∧
        labels.flatten[j]? = labels.flatten[i]? ∧
        ∀ k < labels.flatten.length, col k = false → labels.flatten[k]? = labels.flatten[i]? → dist i j ≤ dist i k) ∧
      (∀ i < labels.flatten.length, col i = false → nb i = -1) ∧
      (∀ i < labels.flatten.length, labels.flatten[i]? = some 0 → col i = false) ∧
      ∀ i < labels.flatten.length, ∀ j < labels.flatten.length, i ≠ j → (∀ g, labels.flatten[i]? = some g → g ≠ 0 ∧
        ∀ k, labels.flatten[k]? = some g ↔ k = i ∨ k = j) → col i = !col j := by
  obtain ⟨col, nb, hgrp, out, h1, h2, h3⟩ := assignFibers_eq dist R which pick hp ord ho labels hg
  obtain ⟨C, hC⟩ : ∃ C : Nat → Bool, C = fun i => if labels.flatten.getD i 0 = 0 then false else col (labels.flatten.getD i 0) i := ⟨_, rfl⟩
  obtain ⟨B, hB⟩ : ∃ B : Nat → Int, B = fun i => if labels.flatten.getD i 0 = 0 then -1 else nb (labels.flatten.getD i 0) i := ⟨_, rfl⟩
  have hget : ∀ (i g : Nat), labels.flatten[i]? = some g → labels.flatten.getD i 0 = g := by
    intro i g h; rw [List.getD_eq_getElem?_getD, h]; rfl
  have hCg : ∀ (i g : Nat), labels.flatten[i]? = some g → g ≠ 0 → C i = col g i := by
    intro i g h h0; rw [hC]; dsimp only; rw [hget i g h]; simp [h0]
  have hsome : ∀ i < labels.flatten.length, ∃ g, labels.flatten[i]? = some g := fun i hi => ⟨_, List.getElem?_eq_getElem hi⟩
  refine ⟨C, B, out, h1, h2, ?_, ?_, ?_, ?_, ?_, ?_⟩
  · rw [h3]
    apply List.ext_getElem?
    intro i
    rw [List.getElem?_mapIdx, List.getElem?_map]
    by_cases hi : i < labels.flatten.length
    · obtain ⟨g, hgi⟩ := hsome i hi
      rw [hgi, List.getElem?_range hi, Option.map_some, Option.map_some, hC, hB]
      dsimp only
      rw [hget i g hgi]
      by_cases h0 : g = 0
      · simp [h0]
      · simp [h0]
    · rw [List.getElem?_eq_none (by omega), List.getElem?_eq_none (by simpa using hi)]; rfl
  · intro i hi j hj hij hCi hCj hd
    obtain ⟨g, g0, hgi, hgj⟩ := hc i j hi hj hij hd
    obtain ⟨index, hm, hok⟩ := hgrp g (List.mem_of_getElem? hgi) g0
    rw [hCg i g hgi g0] at hCi
    rw [hCg j g hgj g0] at hCj
    exact hok.free i ((hm i).mpr hgi) j ((hm j).mpr hgj) hij hCi hCj hd
  · intro i hi hCi
    obtain ⟨g, hgi⟩ := hsome i hi
    have g0 : g ≠ 0 := by
      rintro rfl
      rw [hC] at hCi
      dsimp only at hCi
      rw [hget i 0 hgi] at hCi
      simp at hCi
    obtain ⟨index, hm, hok⟩ := hgrp g (List.mem_of_getElem? hgi) g0
    rw [hCg i g hgi g0] at hCi
    obtain ⟨j, hj, e1, e2, e3⟩ := hok.nearest i ((hm i).mpr hgi) hCi
    have hgj := (hm j).mp hj
    refine ⟨j, (List.getElem?_eq_some_iff.mp hgj).1, ?_, ?_, by rw [hgi, hgj], ?_⟩
    · rw [hB]; dsimp only; rw [hget i g hgi, if_neg g0, e1]
    · rw [hCg j g hgj g0]; exact e2
    · intro k hk hCk hgk
      rw [hgi] at hgk
      rw [hCg k g hgk g0] at hCk
      exact e3 k ((hm k).mpr hgk) hCk
  · intro i hi hCi
    obtain ⟨g, hgi⟩ := hsome i hi
    rw [hB]
    dsimp only
    rw [hget i g hgi]
    by_cases g0 : g = 0
    · rw [if_pos g0]
    · obtain ⟨index, hm, hok⟩ := hgrp g (List.mem_of_getElem? hgi) g0
      rw [if_neg g0]
      rw [hCg i g hgi g0] at hCi
      exact hok.clean i ((hm i).mpr hgi) hCi
  · intro i hi h0
    rw [hC]
    dsimp only
    rw [hget i 0 h0, if_pos rfl]
  · intro i hi j hj hij hpair
    obtain ⟨g, hgi⟩ := hsome i hi
    obtain ⟨g0, hk⟩ := hpair g hgi
    have hgj := (hk j).mpr (Or.inr rfl)
    obtain ⟨index, hm, hok⟩ := hgrp g (List.mem_of_getElem? hgi) g0
    rw [hCg i g hgi g0, hCg j g hgj g0]
    exact hok.pair i j hij fun k => (hm k).trans (hk k)

/-- Positions on a line: three in a row, a pair, and one alone. -/
def line (i : Nat) : Int := [0, 1, 2, 10, 11, 20].getD i 0

theorem line_groups : ∀ i ∈ List.range 6, ∀ g ∈ List.range 3, [1, 1, 1, 2, 2, 0][i]? = some g → g ≠ 0 →
    ∃ j ∈ List.range 6, j ≠ i ∧ [1, 1, 1, 2, 2, 0][j]? = some g := by decide

theorem line_collisions : ∀ i ∈ List.range 6, ∀ j ∈ List.range 6, i ≠ j → (line i - line j) * (line i - line j) ≤ 1 →
    ∃ g ∈ List.range 3, g ≠ 0 ∧ [1, 1, 1, 2, 2, 0][i]? = some g ∧ [1, 1, 1, 2, 2, 0][j]? = some g := by decide

example (which : Nat → Bool) (pick : Nat → Nat → List Nat → Nat) (hp : ∀ g, IsPick (pick g)) (ord : List (Nat × Nat) → List (Nat × Nat))
    (ho : IsOrd ord) :
    ∃ (col : Nat → Bool) (nb : Nat → Int) (out : List (List Res)),
      assignFibers (fun i j => (line i - line j) * (line i - line j)) 1 which pick ord [[1, 1, 1], [2, 2, 0]] = .ok out ∧
      out.flatten = (List.range 6).map (fun i => (some (col i), some (nb i))) ∧
      (col 0 = true ∨ col 1 = true) ∧ (col 3 = true ∨ col 4 = true) := by
  obtain ⟨col, nb, out, h1, h2, h3, h4, -⟩ := fibers_spec (fun i j => (line i - line j) * (line i - line j)) 1 which pick hp ord ho
    [[1, 1, 1], [2, 2, 0]] (by
      intro i g hi hg
      have hi' : i < 6 := (List.getElem?_eq_some_iff.mp hi).1
      have hgm : g ∈ [1, 1, 1, 2, 2, 0] := List.mem_of_getElem? hi
      have hg2 : g ≤ 2 := by simp at hgm; omega
      obtain ⟨j, -, hj⟩ := line_groups i (List.mem_range.mpr hi') g (List.mem_range.mpr (by omega)) hi hg
      exact ⟨j, hj⟩) (by
      intro i j hi hj hij hd
      obtain ⟨g, -, h⟩ := line_collisions i (List.mem_range.mpr hi) j (List.mem_range.mpr hj) hij hd
      exact ⟨g, h⟩)
  refine ⟨col, nb, out, h1, h3, ?_, ?_⟩
  · have := h4 0 (by decide) 1 (by decide) (by decide)
    cases h0 : col 0
    · cases h1 : col 1
      · exact absurd (this h0 h1) (by decide)
      · exact Or.inr rfl
    · exact Or.inl rfl
  · have := h4 3 (by decide) 4 (by decide) (by decide)
    cases h0 : col 3
    · cases h1 : col 4
      · exact absurd (this h0 h1) (by decide)
      · exact Or.inr rfl
    · exact Or.inl rfl

theorem loop_prefix (d : Nat → Nat → α) (R : α) (pick : Nat → List Nat → Nat) (f : Nat) (group c : List Nat) (x : Nat) (hx : x ∈ c) :
    x ∈ loop d R pick f group c := by
  induction f generalizing group c with
  | zero => exact hx
  | succ f ih =>
    unfold loop
    split
    · apply ih
      split
      · simp [hx]
      · exact hx
    · exact hx

/-- **C42**, what holds in every group: an object is collided only if it collides with an object that has a fiber or is collided after it,
and at least one object has a fiber. (`t` are the collided objects in the order of their removal.)
Missing for maximality: that the object it collides with has a fiber, see `multiplets_not_maximal`. -/
theorem multiplets_maximal_partial (d : Nat → Nat → α) (R : α) (pick : Nat → List Nat → Nat) (hp : IsPick pick) (N : Nat) (hN : 0 < N) :
    ∃ (t : List Nat) (nbrs : List Nat),
      assignMultiplets d R pick N = .ok ((List.range N).map fun i => decide (i ∈ t), nbrs) ∧ t.Nodup ∧ (∀ x ∈ t, x < N) ∧ t.length < N ∧
      ∀ p x s, t = p ++ x :: s → ∃ y < N, y ≠ x ∧ d y x ≤ R ∧ (y ∉ t ∨ y ∈ s) := by
  obtain ⟨t, nbr, h1, -, -, ⟨a, ha, hat⟩, h5, -, h6, h7⟩ := assignMultiplets_spec d R pick hp N hN
  refine ⟨t, _, h1, h6, h5, ?_, ?_⟩
  · have : (a :: t).Nodup := List.nodup_cons.mpr ⟨hat, h6⟩
    have hsub : (a :: t).Subperm (List.range N) := List.subperm_of_subset this (by
      intro x hx
      rcases List.mem_cons.mp hx with rfl | hx
      · simpa using ha
      · simpa using h5 x hx)
    have := hsub.length_le
    simp at this; omega
  · intro p x s e
    obtain ⟨y, hy, hyx, hyp, hd⟩ := h7 p x s e
    refine ⟨y, hy, hyx, hd, ?_⟩
    by_cases hyt : y ∈ t
    · right
      rw [e, List.mem_append, List.mem_cons] at hyt
      rcases hyt with h | h | h
      · exact absurd h hyp
      · exact absurd h hyx
      · exact h
    · exact Or.inl hyt

/-- **C42**, groups where all objects collide with each other: exactly one object has a fiber, which is maximal. -/
theorem multiplets_clique_partial (d : Nat → Nat → α) (R : α) (pick : Nat → List Nat → Nat) (hp : IsPick pick) (N : Nat) (hN : 0 < N)
    (hall : ∀ a < N, ∀ b < N, a ≠ b → d a b ≤ R) :
    ∃ (flags : List Bool) (nbrs : List Nat), assignMultiplets d R pick N = .ok (flags, nbrs) ∧ flags.length = N ∧
      ∃ a < N, flags[a]? = some false ∧ ∀ b < N, b ≠ a → flags[b]? = some true := by
  obtain ⟨t, nbr, h1, h2, -, ⟨a, ha, hat⟩, -⟩ := assignMultiplets_spec d R pick hp N hN
  refine ⟨_, _, h1, by simp, a, ha, by simp [ha, hat], ?_⟩
  intro b hb hba
  have : b ∈ t := by
    by_contra hbt
    exact h2 a ha hat b hb hbt (Ne.symm hba) (hall a ha b hb (Ne.symm hba))
  simp [hb, this]

/-! A group that ends with an object which is collided although no object with a fiber is near it. -/

/-- 13 points on a sphere of radius `10100 * 10360`: one in the middle, four around it, and two next to each of the four. They are the
stereographic images of `(0, 0)`, `(10, 0)`, ..., `(18, 6)`, ... in units of `1/100`. -/
def star (i : Nat) : Int × Int × Int :=
  [(0, 0, 10100 * 10360),
   (2000 * 10360, 0, 9900 * 10360), (-2000 * 10360, 0, 9900 * 10360), (0, 2000 * 10360, 9900 * 10360), (0, -2000 * 10360, 9900 * 10360),
   (3600 * 10100, 1200 * 10100, 9640 * 10100), (3600 * 10100, -1200 * 10100, 9640 * 10100),
   (-3600 * 10100, 1200 * 10100, 9640 * 10100), (-3600 * 10100, -1200 * 10100, 9640 * 10100),
   (1200 * 10100, 3600 * 10100, 9640 * 10100), (-1200 * 10100, 3600 * 10100, 9640 * 10100),
   (1200 * 10100, -3600 * 10100, 9640 * 10100), (-1200 * 10100, -3600 * 10100, 9640 * 10100)].getD i (0, 0, 0)

/-- The squared distance of two of the points. -/
def starDist (i j : Nat) : Int :=
  ((star i).1 - (star j).1) ^ 2 + ((star i).2.1 - (star j).2.1) ^ 2 + ((star i).2.2 - (star j).2.2) ^ 2

/-- The squared collision radius: 0.045 times the squared radius of the sphere. -/
def starR : Int := 45 * (10100 * 10360) ^ 2 / 1000

/-- The points are on the sphere. -/
theorem star_sphere : ∀ i < 13, (star i).1 ^ 2 + (star i).2.1 ^ 2 + (star i).2.2 ^ 2 = (10100 * 10360) ^ 2 := by decide +kernel

/-- The group without the middle and with those of the four given by the bits of `m`. -/
def starGroup (m : Nat) : List Nat := ((List.range 13).erase 0).filter fun a => decide (5 ≤ a) || m.testBit (a - 1)

theorem star_first : cands starDist starR (List.range 13) = [0] ∧ nColl starDist starR (List.range 13) 0 > 0 := by decide +kernel

theorem star_step_ids : ∀ m ∈ List.range 16, m ≠ 0 → ∀ a ∈ cands starDist starR (starGroup m), 1 ≤ a ∧ a ≤ 4 ∧ m.testBit (a - 1) = true ∧
    nColl starDist starR (starGroup m) a > 0 := by decide +kernel

theorem star_step_erase : ∀ m ∈ List.range 16, m ≠ 0 → ∀ a ∈ cands starDist starR (starGroup m),
    (starGroup m).erase a = starGroup (m - 2 ^ (a - 1)) ∧ (starGroup m).length > 1 ∧ m - 2 ^ (a - 1) < 16 := by decide +kernel

theorem star_step_count : ∀ m ∈ List.range 16, m ≠ 0 → ∀ a ∈ cands starDist starR (starGroup m),
    ((List.range 4).filter (m - 2 ^ (a - 1)).testBit).length + 1 = ((List.range 4).filter m.testBit).length := by decide +kernel

theorem star_step_rest : ∀ m ∈ List.range 16, m ≠ 0 → ∀ a ∈ cands starDist starR (starGroup m),
    ∀ b ∈ List.range 5, 1 ≤ b → m.testBit (b - 1) = true → b = a ∨ (m - 2 ^ (a - 1)).testBit (b - 1) = true := by decide +kernel

theorem star_loop (pick : Nat → List Nat → Nat) (hp : IsPick pick) (k : Nat) : ∀ (m f : Nat) (c : List Nat), m < 16 →
    ((List.range 4).filter m.testBit).length = k → k ≤ f →
    ∀ b < 5, 1 ≤ b → m.testBit (b - 1) = true → b ∈ loop starDist starR pick f (starGroup m) c := by
  induction k with
  | zero =>
    intro m f c _ hk _ b hb hb1 hbit
    have : b - 1 ∈ (List.range 4).filter m.testBit := List.mem_filter.mpr ⟨by simp; omega, hbit⟩
    rw [List.length_eq_zero_iff] at hk
    rw [hk] at this; cases this
  | succ k ih =>
    intro m f c hm hk hf b hb hb1 hbit
    have hm0 : m ≠ 0 := by rintro rfl; simp at hbit
    have hne : starGroup m ≠ [] := by
      intro h0
      have : 5 ∈ starGroup m := by
        unfold starGroup
        exact List.mem_filter.mpr ⟨by decide, by simp⟩
      rw [h0] at this; cases this
    obtain ⟨f, rfl⟩ : ∃ f', f = f' + 1 := ⟨f - 1, by omega⟩
    have ha := hp (starGroup m).length _ (cands_ne starDist starR (starGroup m) hne)
    have hmr := List.mem_range.mpr hm
    obtain ⟨-, -, -, s4⟩ := star_step_ids m hmr hm0 _ ha
    obtain ⟨s5, s6, s7⟩ := star_step_erase m hmr hm0 _ ha
    have s8 := star_step_count m hmr hm0 _ ha
    have s9 := fun b hb => star_step_rest m hmr hm0 _ ha b (List.mem_range.mpr hb)
    unfold loop
    rw [if_pos s6]
    dsimp only
    rw [if_pos s4, s5]
    rcases s9 b hb hb1 hbit with e | e
    · apply loop_prefix
      rw [← e]; simp
    · exact ih _ f _ s7 (by omega) (by omega) b hb hb1 e

/-- **C42** is false: in this group, whatever the random choices, object 0 is collided, while every object within the collision radius of
it is collided too; it could be given a fiber. -/
theorem multiplets_not_maximal (pick : Nat → List Nat → Nat) (hp : IsPick pick) :
    ∃ (flags : List Bool) (nbrs : List Nat), assignMultiplets starDist starR pick 13 = .ok (flags, nbrs) ∧
      flags[0]? = some true ∧ ∀ b < 13, starDist 0 b ≤ starR → flags[b]? = some true := by
  obtain ⟨t, nbr, h1, -, -, -, -, h6, -⟩ := assignMultiplets_spec starDist starR pick hp 13 (by omega)
  have hx : pick 13 (cands starDist starR (List.range 13)) = 0 := by
    have := hp 13 _ (cands_ne starDist starR (List.range 13) (by decide))
    rw [star_first.1] at this ⊢
    simpa using this
  have ht : t = loop starDist starR pick 12 (starGroup 15) [0] := by
    rw [h6]
    unfold loop
    rw [if_pos (by decide)]
    have hl : (List.range 13).length = 13 := rfl
    dsimp only
    rw [hl, hx, if_pos star_first.2]
    rfl
  refine ⟨_, _, h1, ?_, ?_⟩
  · have : 0 ∈ t := by rw [ht]; exact loop_prefix _ _ _ _ _ _ _ (by simp)
    simp [this]
  · intro b hb hd
    have hb5 : b < 5 := by
      have key : ∀ b < 13, starDist 0 b ≤ starR → b < 5 := by decide +kernel
      exact key b hb hd
    have : b ∈ t := by
      rw [ht]
      by_cases hb0 : b = 0
      · rw [hb0]; exact loop_prefix _ _ _ _ _ _ _ (by simp)
      · refine star_loop pick hp 4 15 12 [0] (by omega) (by decide) (by omega) b hb5 (by omega) ?_
        have key : ∀ b < 5, b ≠ 0 → Nat.testBit 15 (b - 1) = true := by decide
        exact key b hb5 hb0
    simp [hb, this]

end NBK.Fiber
