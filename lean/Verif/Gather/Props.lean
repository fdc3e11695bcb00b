import Verif.Gather.Lemmas

/-!
# C03, C04, C05: gathering and scattering arrays
-/
set_option linter.unusedSimpArgs false
namespace NBK.Gather

/-- Specification: is rank `r` one of the ranks that receive the gathered array? -/
def receives (root : Root) (r : Nat) : Prop := root = .ellipsis ∨ root = .rank r

instance (root : Root) (r : Nat) : Decidable (receives root r) := by unfold receives; infer_instance

theorem here_iff (root : Root) (r : Nat) : root.here r = true ↔ receives root r := by
  cases root with
  | ellipsis => simp [Root.here, receives]
  | rank q => simp only [Root.here, receives, beq_iff_eq, Root.rank.injEq, reduceCtorEq, false_or]; exact eq_comm

/-- C03, plain arrays: for every root, every number of ranks and all local lengths (also zero), the receiving
rank(s) get all rows in rank order, completely initialised, the others `None`. -/
theorem gather_rows {δ ρ : Type} [DecidableEq δ] (isObj : δ → Bool) (root : Root) (A : List (Arr δ ρ))
    (dt : δ) (tr : List Nat) (hobj : isObj dt = false) (hA : ∀ a ∈ A, a.dtype = dt ∧ a.trail = tr) :
    gather isObj root A = .ok (A.mapIdx fun r _ =>
      if receives root r then some (((A.map Arr.rows).flatten).map some) else none) := by
  cases A with
  | nil => rfl
  | cons a0 rest =>
    have h0 := hA a0 (by simp)
    have hs : rest.any (fun a => a.trail != a0.trail) = false := by
      simp only [List.any_eq_false, bne_iff_ne, ne_eq, not_not]
      intro a ha
      rw [(hA a (by simp [ha])).2, h0.2]
    have hd : rest.any (fun a => a.dtype != a0.dtype) = false := by
      simp only [List.any_eq_false, bne_iff_ne, ne_eq, not_not]
      intro a ha
      rw [(hA a (by simp [ha])).1, h0.1]
    simp only [gather, h0.1, hobj, hs]
    rw [h0.1] at hd
    simp only [hd, ite_self, Bool.false_eq_true, if_false, gatherv_eq, here_iff]

/-- C03, structured arrays: every field of record `i` of the result is that field of record `i` of the
concatenation of all ranks' records; so records stay together. -/
theorem gatherStruct_rows {δ π : Type} [DecidableEq δ] (isObj : δ → Bool) (root : Root)
    (A : List (SArr δ π)) (names : List String) (fdt : String → δ) (tr : List Nat)
    (hobj : ∀ n ∈ names, isObj (fdt n) = false)
    (hA : ∀ a ∈ A, a.names = names ∧ a.trail = tr ∧ ∀ n ∈ names, a.fdtype n = fdt n) :
    gatherStruct isObj root A = .ok (A.mapIdx fun r _ =>
      if receives root r then
        some (names.map fun n => (n, ((A.map SArr.rows).flatten.map fun rec => some (rec n))))
      else none) := by
  cases A with
  | nil => rfl
  | cons a0 rest =>
    have h0 := hA a0 (by simp)
    have h1 : rest.any (fun a => !sameSet a.names a0.names) = false := by
      simp only [List.any_eq_false, Bool.not_eq_true', Bool.not_eq_false]
      intro a ha
      rw [(hA a (by simp [ha])).1, h0.1]
      simp [sameSet]
    have h2 : a0.names.any (fun n => isObj (a0.fdtype n)) = false := by
      rw [h0.1]
      simp only [List.any_eq_false, Bool.not_eq_true]
      intro n hn
      rw [h0.2.2 n hn]; exact hobj n hn
    have hcol : ∀ n ∈ names, gather isObj root ((a0 :: rest).map (·.column n)) = .ok
        (((a0 :: rest).map (·.column n)).mapIdx fun r _ => if receives root r then
          some (((((a0 :: rest).map (·.column n)).map Arr.rows).flatten).map some) else none) := by
      intro n hn
      apply gather_rows isObj root _ (fdt n) tr (hobj n hn)
      intro a ha
      simp only [List.mem_map] at ha
      obtain ⟨b, hb, rfl⟩ := ha
      exact ⟨(hA b hb).2.2 n hn, (hA b hb).2.1⟩
    have hmapM : ∀ ns : List String, (∀ n ∈ ns, n ∈ names) →
        (ns.mapM fun n => (do
          let d ← gather isObj root ((a0 :: rest).map (·.column n))
          pure (n, d) : Except Err _))
        = .ok (ns.map fun n => (n, ((a0 :: rest).map (·.column n)).mapIdx fun r _ => if receives root r then
          some (((((a0 :: rest).map (·.column n)).map Arr.rows).flatten).map some) else none)) := by
      intro ns hns
      induction ns with
      | nil => rfl
      | cons n ns ih =>
        rw [List.mapM_cons, hcol n (hns n (by simp)), ih (fun m hm => hns m (by simp [hm]))]
        rfl
    simp only [gatherStruct, h1, h2, Bool.false_eq_true, if_false]
    rw [h0.1, hmapM names (fun _ h => h)]
    show Except.ok _ = Except.ok _
    congr 1
    apply List.ext_getElem?
    intro r
    simp only [List.getElem?_mapIdx]
    cases hr : (a0 :: rest)[r]? with
    | none => rfl
    | some a =>
      simp only [Option.map_some, here_iff]
      congr 1
      by_cases hrec : receives root r
      · simp only [hrec, if_true, List.map_map, Option.some.injEq]
        apply List.map_congr_left
        intro n _
        simp only [Function.comp_apply, List.getElem?_mapIdx, List.getElem?_map, hr, Option.map_some, hrec,
          if_true, Option.join_some, Option.getD_some, Prod.mk.injEq, true_and]
        rw [← List.map_map, List.map_flatten]
        simp only [List.map_map, Function.comp_def, SArr.column, List.map_flatten]
      · simp [hrec]

/-- Non-vacuity of C03: three ranks (one empty), gathered on rank 2. -/
example : gather (fun _ : Nat => false) (.rank 2) [⟨8, [3], [1, 2]⟩, ⟨8, [3], []⟩, ⟨8, [3], [5]⟩]
    = .ok [none, none, some [some 1, some 2, some 5]] := by rfl
example : ∀ a ∈ ([⟨8, [3], [1, 2]⟩, ⟨8, [3], []⟩, ⟨8, [3], [5]⟩] : List (Arr Nat Nat)),
    a.dtype = 8 ∧ a.trail = [3] := by simp

/-- C04, default counts: valid data on rank 0 (any content on the other ranks) is handed out in contiguous
pieces in rank order, nothing lost, and piece lengths differ by at most one (larger ones first). -/
theorem scatter_default {δ ρ : Type} (isObj : δ → Bool) (a : Arr δ ρ) (rest : List (Input δ ρ))
    (hobj : isObj a.dtype = false) :
    ∃ ps : List (List ρ), scatter isObj 0 none (.arr a :: rest) = .ok (ps.map (List.map some))
      ∧ ps.length = rest.length + 1
      ∧ ps.flatten = a.rows
      ∧ (∀ p ∈ ps, ∀ q ∈ ps, p.length ≤ q.length + 1)
      ∧ (∀ (i j : Nat) (p q : List ρ), i ≤ j → ps[i]? = some p → ps[j]? = some q → q.length ≤ p.length) := by
  have hsum := newlength_sum a.rows.length (rest.length + 1) (by omega)
  refine ⟨((List.range (rest.length + 1)).map (newlength a.rows.length (rest.length + 1))).mapIdx fun r c =>
    (a.rows.drop (offset ((List.range (rest.length + 1)).map
      (newlength a.rows.length (rest.length + 1))) r)).take c, ?_, ?_, ?_, ?_⟩
  · simp only [scatter, Input.isArr, hobj, List.length_cons]
    simp only [Bool.not_true, ite_self, Bool.false_eq_true, if_false, ne_eq, not_true_eq_false]
    rw [pieces_eq _ _ hsum]
  · simp
  · unfold offset
    rw [NBK.Comm.windows_flatten, hsum, List.take_length]
  · have hl : ∀ i p, (((List.range (rest.length + 1)).map
        (newlength a.rows.length (rest.length + 1))).mapIdx fun r c =>
        (a.rows.drop (offset ((List.range (rest.length + 1)).map
          (newlength a.rows.length (rest.length + 1))) r)).take c)[i]? = some p →
        p.length = newlength a.rows.length (rest.length + 1) i := by
      intro i p hp
      rw [List.getElem?_mapIdx] at hp
      simp only [Option.map_eq_some_iff] at hp
      obtain ⟨c, hc, rfl⟩ := hp
      have hci : c = newlength a.rows.length (rest.length + 1) i := by
        rw [List.getElem?_map, Option.map_eq_some_iff] at hc
        obtain ⟨x, hx, rfl⟩ := hc
        have := List.getElem?_eq_some_iff.mp hx
        obtain ⟨_, rfl⟩ := this
        simp
      have hle : offset ((List.range (rest.length + 1)).map
          (newlength a.rows.length (rest.length + 1))) i + c ≤ a.rows.length := by
        generalize (List.range (rest.length + 1)).map (newlength a.rows.length (rest.length + 1)) = cnts at *
        obtain ⟨hr', rfl⟩ := List.getElem?_eq_some_iff.mp hc
        have e := congrArg List.sum (List.take_append_drop i cnts)
        rw [List.drop_eq_getElem_cons hr', List.sum_append, List.sum_cons] at e
        simp only [offset]; omega
      simp only [List.length_take, List.length_drop]
      omega
    constructor
    · intro p hp q hq
      obtain ⟨i, hi⟩ := List.mem_iff_getElem?.mp hp
      obtain ⟨j, hj⟩ := List.mem_iff_getElem?.mp hq
      rw [hl i p hi, hl j q hj]
      unfold newlength
      split <;> split <;> omega
    · intro i j p q hij hi hj
      rw [hl i p hi, hl j q hj]
      unfold newlength
      split <;> split <;> omega

/-- C04, given counts: rank `r` gets exactly `counts[r]` rows, in rank order, nothing lost. -/
theorem scatter_counts {δ ρ : Type} (isObj : δ → Bool) (a : Arr δ ρ) (rest : List (Input δ ρ))
    (hobj : isObj a.dtype = false) (cs : List Nat) (hlen : cs.length = rest.length + 1)
    (hsum : cs.sum = a.rows.length) :
    ∃ ps : List (List ρ), scatter isObj 0 (some cs) (.arr a :: rest) = .ok (ps.map (List.map some))
      ∧ ps.map List.length = cs ∧ ps.flatten = a.rows := by
  refine ⟨cs.mapIdx fun r c => (a.rows.drop (offset cs r)).take c, ?_, ?_, ?_⟩
  · simp only [scatter, Input.isArr, hobj, List.length_cons, hlen, hsum]
    simp only [bne_self_eq_false, Bool.not_true, ite_self, Bool.false_eq_true, if_false, ne_eq,
      not_true_eq_false]
    rw [pieces_eq _ _ hsum]
  · apply List.ext_getElem?
    intro i
    simp only [List.getElem?_map, List.getElem?_mapIdx]
    cases hi : cs[i]? with
    | none => rfl
    | some c =>
      obtain ⟨hr', rfl⟩ := List.getElem?_eq_some_iff.mp hi
      have e := congrArg List.sum (List.take_append_drop i cs)
      rw [List.drop_eq_getElem_cons hr', List.sum_append, List.sum_cons] at e
      simp only [Option.map_some, List.length_take, List.length_drop, Option.some.injEq, offset]
      omega
  · unfold offset
    rw [NBK.Comm.windows_flatten, hsum, List.take_length]

/-- C04, rejection: counts of the wrong length, or of the wrong sum, raise `ValueError`. -/
theorem scatter_bad_counts {δ ρ : Type} (isObj : δ → Bool) (a : Arr δ ρ) (rest : List (Input δ ρ))
    (cs : List Nat) (h : cs.length ≠ rest.length + 1 ∨ cs.sum ≠ a.rows.length) :
    scatter isObj 0 (some cs) (.arr a :: rest) = .error .valueError := by
  unfold scatter
  simp only [List.length_cons]
  by_cases h1 : cs.length = rest.length + 1
  · have h2 : cs.sum ≠ a.rows.length := by
      rcases h with h | h
      · exact absurd h1 h
      · exact h
    simp [h1, h2, Input.isArr]
  · simp [h1]

/-- C04, round trip: gathering what was scattered (default or explicit counts) gives the input back on the
receiving rank, for any receiving rank. -/
theorem gather_scatter {δ ρ : Type} [DecidableEq δ] (isObj : δ → Bool) (a : Arr δ ρ)
    (rest : List (Input δ ρ)) (hobj : isObj a.dtype = false) (counts : Option (List Nat)) (root : Root)
    (out : List (List (Option ρ)))
    (h : scatter isObj 0 counts (.arr a :: rest) = .ok out) :
    ∃ res, gather isObj root (out.map fun p => (⟨a.dtype, a.trail, p⟩ : Arr δ (Option ρ))) = .ok res
      ∧ res.length = rest.length + 1
      ∧ ∀ r : Nat, r < rest.length + 1 → res[r]? = some
          (if receives root r then some (a.rows.map fun y => some (some y)) else none) := by
  have hps : ∃ ps : List (List ρ), out = ps.map (List.map some) ∧ ps.flatten = a.rows
      ∧ ps.length = rest.length + 1 := by
    cases counts with
    | none =>
      obtain ⟨ps, h1, h2, h3, -⟩ := scatter_default isObj a rest hobj
      rw [h1] at h; cases h; exact ⟨ps, rfl, h3, h2⟩
    | some cs =>
      by_cases hb : cs.length = rest.length + 1 ∧ cs.sum = a.rows.length
      · obtain ⟨ps, h1, h2, h3⟩ := scatter_counts isObj a rest hobj cs hb.1 hb.2
        rw [h1] at h; cases h
        exact ⟨ps, rfl, h3, by rw [← hb.1, ← h2, List.length_map]⟩
      · rw [scatter_bad_counts isObj a rest cs (by rw [not_and_or] at hb; exact hb)] at h
        cases h
  obtain ⟨ps, rfl, hfl, hl⟩ := hps
  refine ⟨_, gather_rows isObj root _ a.dtype a.trail hobj (by simp), by simp [hl], ?_⟩
  intro r hr
  rw [List.getElem?_mapIdx]
  have hlt : r < ((ps.map (List.map some)).map fun p => (⟨a.dtype, a.trail, p⟩ : Arr δ (Option ρ))).length := by
    simp; omega
  rw [List.getElem?_eq_getElem hlt, Option.map_some]
  congr 2
  simp only [List.map_map, Function.comp_def]
  rw [← hfl, List.map_flatten, List.map_flatten, List.map_map]
  simp [Function.comp_def]

/-- Non-vacuity of C04. -/
example : scatter (fun _ : Nat => false) 0 none [.arr ⟨8, [], [1, 2, 3, 4, 5]⟩, .none, .notArray]
    = .ok [[some 1, some 2], [some 3, some 4], [some 5]] := by rfl
example : scatter (fun _ : Nat => false) 0 (some [0, 4, 1]) [.arr ⟨8, [], [1, 2, 3, 4, 5]⟩, .none, .none]
    = .ok [[], [some 1, some 2, some 3, some 4], [some 5]] := by rfl
example : scatter (fun _ : Nat => false) 0 (some [0, 4, 2]) [.arr ⟨8, [], [1, 2, 3, 4, 5]⟩, .none, .none]
    = .error .valueError := by rfl

/-- C05, the part that holds: with `root = 0` or `Ellipsis`, arrays whose `dtype` or `shape[1:]` differ
between ranks are rejected with `ValueError`, and only those (and object dtypes). Missing: other roots,
see the two theorems below. -/
theorem gather_reject_iff_partial {δ ρ : Type} [DecidableEq δ] (isObj : δ → Bool) (root : Root)
    (hroot : root = .ellipsis ∨ root = .rank 0) (a0 : Arr δ ρ) (rest : List (Arr δ ρ))
    (hobj : isObj a0.dtype = false) :
    gather isObj root (a0 :: rest) = .error .valueError ↔
      ∃ a ∈ a0 :: rest, ∃ b ∈ a0 :: rest, a.dtype ≠ b.dtype ∨ a.trail ≠ b.trail := by
  have hh : root.here 0 = true := by rw [here_iff]; exact hroot
  constructor
  · intro h
    by_contra hcon
    push Not at hcon
    have := gather_rows isObj root (a0 :: rest) a0.dtype a0.trail hobj
      (fun a ha => hcon a ha a0 (by simp))
    rw [this] at h; cases h
  · rintro ⟨a, ha, b, hb, hab⟩
    have : (rest.any fun a => a.trail != a0.trail) = true ∨ (rest.any fun a => a.dtype != a0.dtype) = true := by
      by_contra hcon
      rw [not_or] at hcon
      simp only [List.any_eq_true, bne_iff_ne, ne_eq, not_exists, not_and, not_not] at hcon
      have hd : ∀ c ∈ a0 :: rest, c.dtype = a0.dtype ∧ c.trail = a0.trail := by
        intro c hc
        rcases List.mem_cons.mp hc with rfl | hc
        · exact ⟨rfl, rfl⟩
        · exact ⟨hcon.2 c hc, hcon.1 c hc⟩
      rcases hab with h | h
      · exact h ((hd a ha).1.trans (hd b hb).1.symm)
      · exact h ((hd a ha).2.trans (hd b hb).2.symm)
    simp only [gather, hobj, hh, if_true, Bool.false_eq_true, if_false]
    rcases this with h | h
    · simp [h]
    · by_cases h2 : (rest.any fun a => a.trail != a0.trail) = true
      · simp [h2]
      · simp [h]

/-- C05 fails for `GatherArray`: with a root other than 0, a mismatch of dtypes or shapes is *never*
detected (the verdict is broadcast from rank 0, which did not compute it). -/
theorem gather_other_root_never_rejects {δ ρ : Type} [DecidableEq δ] (isObj : δ → Bool) (r : Nat)
    (hr : r ≠ 0) (a0 : Arr δ ρ) (rest : List (Arr δ ρ)) (hobj : isObj a0.dtype = false) :
    ∃ out, gather isObj (.rank r) (a0 :: rest) = .ok out := by
  have hh : (Root.rank r).here 0 = false := by simp [Root.here]; omega
  simp [gather, hobj, hh]

/-- Hence the documented check fails for root 1 on two ranks with different dtypes. -/
theorem gather_mismatch_not_rejected :
    ∃ A : List (Arr Nat Nat), (∃ a ∈ A, ∃ b ∈ A, a.dtype ≠ b.dtype) ∧
      gather (fun _ => false) (.rank 0) A = .error .valueError ∧
      gather (fun _ => false) (.rank 1) A ≠ .error .valueError := by
  refine ⟨[⟨4, [], [1]⟩, ⟨8, [], [2]⟩], by simp, by rfl, ?_⟩
  obtain ⟨out, h⟩ := gather_other_root_never_rejects (fun _ => false) 1 (by omega)
    (⟨4, [], [1]⟩ : Arr Nat Nat) [⟨8, [], [2]⟩] rfl
  rw [h]; simp

/-- C05 fails for `ScatterArray`: if, as documented, only rank `root` has the data and the others pass `None`,
then for every root other than 0 the call fails on rank 0. -/
theorem scatter_other_root_fails {δ ρ : Type} (isObj : δ → Bool) (root : Nat) (hr : root ≠ 0)
    (D : List (Input δ ρ)) (h0 : D[0]? = some .none) :
    scatter isObj root none D = .error .attributeError := by
  cases D with
  | nil => simp at h0
  | cons d D =>
    simp only [List.getElem?_cons_zero, Option.some.injEq] at h0
    subst h0
    simp [scatter, hr]

/-- C05 fails for `ScatterArray` even if rank 0 passes an array too: it is rank 0's shape that is used and
no row of rank `root` arrives anywhere. -/
theorem scatter_other_root_garbage {δ ρ : Type} (isObj : δ → Bool) (root : Nat) (hr : root ≠ 0)
    (a0 : Arr δ ρ) (rest : List (Input δ ρ)) (hobj : isObj a0.dtype = false) :
    ∃ out, scatter isObj root none (.arr a0 :: rest) = .ok out ∧ ∀ p ∈ out, ∀ x ∈ p, x = none := by
  refine ⟨_, by simp [scatter, hr, hobj]; rfl, ?_⟩
  intro p hp x hx
  simp only [List.mem_mapIdx] at hp
  obtain ⟨i, hi, rfl⟩ := hp
  simp at hx
  exact hx.2

/-- Non-vacuity: valid data on root 1 of two ranks. -/
example : scatter (fun _ : Nat => false) 1 none [.none, .arr ⟨8, [], [1, 2, 3]⟩]
    = .error .attributeError := scatter_other_root_fails _ 1 (by omega) _ rfl

/-- C03: structured data are rejected by all ranks as soon as one rank has a field that rank 0 does not have, or lacks one,
whatever the root. -/
theorem gatherStruct_names {δ π : Type} [DecidableEq δ] (isObj : δ → Bool) (root : Root) (a0 : SArr δ π)
    (rest : List (SArr δ π)) (b : SArr δ π) (hb : b ∈ rest) (n : String) (h : ¬ (n ∈ b.names ↔ n ∈ a0.names)) :
    gatherStruct isObj root (a0 :: rest) = .error .valueError := by
  unfold gatherStruct
  dsimp only
  rw [if_pos]
  rw [List.any_eq_true]
  refine ⟨b, hb, ?_⟩
  rw [Bool.not_eq_true']
  by_contra hc
  rw [Bool.not_eq_false] at hc
  unfold sameSet at hc
  rw [Bool.and_eq_true, List.all_eq_true, List.all_eq_true] at hc
  exact h ⟨fun hn => by simpa using hc.1 n hn, fun hn => by simpa using hc.2 n hn⟩

/-- The fields of other ranks may come in another order: the columns are paired by name, in the order of rank 0. -/
theorem gatherStruct_order {π : Type} (x y : π) (u v : π) (root : Root) :
    gatherStruct (fun _ => false) root
      [(⟨["a", "b"], fun _ => (8 : Nat), [], [fun n => if n = "a" then x else y]⟩ : SArr Nat π),
       ⟨["b", "a"], fun _ => 8, [], [fun n => if n = "a" then u else v]⟩]
      = .ok [if receives root 0 then some [("a", [some x, some u]), ("b", [some y, some v])] else none,
             if receives root 1 then some [("a", [some x, some u]), ("b", [some y, some v])] else none] := by
  rcases root with _ | (_ | _ | r)
  · rfl
  · rfl
  · rfl
  · have h0 : ¬ receives (.rank (r + 1 + 1)) 0 := by simp [receives]
    have h1 : ¬ receives (.rank (r + 1 + 1)) 1 := by simp [receives]
    rw [if_neg h0, if_neg h1]
    rfl

/-- C03: with root 0 anything but an array is a ValueError on all ranks. -/
theorem scatter_not_array {δ ρ : Type} (isObj : δ → Bool) (d0 : Input δ ρ) (rest : List (Input δ ρ))
    (h : ∀ a, d0 ≠ .arr a) : scatter isObj 0 none (d0 :: rest) = .error .valueError := by
  cases d0 with
  | arr a => exact absurd rfl (h a)
  | none => rfl
  | notArray => rfl

end NBK.Gather
