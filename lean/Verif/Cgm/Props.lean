import Verif.Cgm.Lemmas
import Mathlib.Data.List.Perm.Basic
import Mathlib.Data.List.Sort

/-!
# Cylindrical groups equal the serial greedy selection (C40)
-/
set_option linter.unusedSimpArgs false
namespace NBK.Cgm
open NBK.Comm

theorem idxOf_desc (l : List Nat) (h : l.Pairwise fun a b => b < a) (k : Nat) (hk : k ∈ l) :
    l.idxOf k = (l.filter fun j => k < j).length := by
  induction l with
  | nil => cases hk
  | cons a l ih =>
    rw [List.pairwise_cons] at h
    by_cases e : a = k
    · subst e
      rw [List.idxOf_cons_self, List.filter_cons, if_neg (by simp), List.filter_eq_nil_iff.mpr]
      · rfl
      · intro b hb; have := h.1 b hb; simp; omega
    · have hk' : k ∈ l := by
        rcases List.mem_cons.mp hk with h | h
        · exact absurd h.symm e
        · exact h
      rw [List.idxOf_cons_ne _ e, ih h.2 hk', List.filter_cons, if_pos (by simpa using h.1 k hk'), List.length_cons]

/-- The number of chosen objects of higher priority than `k`. -/
def above (n : Nat) (G : Nat → Bool) (k : Nat) : Nat := ((List.range n).filter fun j => decide (k < j) && G j).length

theorem label_eq (n : Nat) (G : Nat → Bool) (all : List Nat) (hmem : ∀ x, x ∈ all ↔ x < n ∧ G x = true)
    (hd : all.Pairwise fun a b => b < a) (k : Nat) :
    label all k = if k < n ∧ G k = true then some (above n G k) else none := by
  unfold label
  by_cases h : k < n ∧ G k = true
  · rw [if_pos ((hmem k).mpr h), if_pos h, idxOf_desc all hd k ((hmem k).mpr h)]
    have hp : all.Perm ((List.range n).filter G) := by
      rw [List.perm_ext_iff_of_nodup (hd.imp fun h => by omega) (List.nodup_range.filter _)]
      intro x; rw [hmem, List.mem_filter, List.mem_range]
    unfold above
    rw [(hp.filter _).length_eq, List.filter_filter]
  · rw [if_neg (fun h' => h ((hmem k).mp h')), if_neg h]

theorem find_max (l : List (Nat × Nat)) (hs : l.Pairwise fun a b => b.2 ≤ a.2) (i m : Nat) (hm : (i, m) ∈ l)
    (hle : ∀ p ∈ l, p.1 = i → p.2 ≤ m) : (l.find? fun p => p.1 = i) = some (i, m) := by
  induction l with
  | nil => cases hm
  | cons a l ih =>
    rw [List.pairwise_cons] at hs
    by_cases e : a.1 = i
    · rw [List.find?_cons_of_pos (by simpa using e)]
      have h1 := hle a (by simp) e
      have h2 : m ≤ a.2 := by
        rcases List.mem_cons.mp hm with h | h
        · rw [← h]
        · exact hs.1 _ h
      have : a = (i, m) := by
        ext
        · exact e
        · exact Nat.le_antisymm h1 h2
      rw [this]
    · rw [List.find?_cons_of_neg (by simpa using e)]
      refine ih hs.2 ?_ (fun p hp => hle p (by simp [hp]))
      rcases List.mem_cons.mp hm with h | h
      · exact absurd (by rw [← h]) e
      · exact h

/-- `host` gives the related chosen object of highest priority of every object that is not chosen. -/
def IsHost (rel : Nat → Nat → Bool) (n : Nat) (G : Nat → Bool) (host : Nat → Nat) : Prop :=
  ∀ k < n, G k = false → host k < n ∧ G (host k) = true ∧ rel k (host k) = true ∧
    ∀ j < n, G j = true → rel k j = true → j ≤ host k

theorem exists_host (rel : Nat → Nat → Bool) (n : Nat) (G : Nat → Bool) (hG : IsGreedy rel n G) : ∃ host, IsHost rel n G host := by
  have key : ∀ k, ∃ m, k < n → G k = false → m < n ∧ G m = true ∧ rel k m = true ∧ ∀ j < n, G j = true → rel k j = true → j ≤ m := by
    intro k
    by_cases hk : k < n ∧ G k = false
    · have hex : ∃ j < n, G j = true ∧ rel k j = true := by
        by_contra hcon
        have : G k = true := by
          rw [hG k hk.1]
          intro j hj _ hr
          by_contra hj'
          exact hcon ⟨j, hj, by simpa using hj', hr⟩
        rw [hk.2] at this; cases this
      have hmax : ∀ d, ∀ j < n, G j = true → rel k j = true → n - j ≤ d →
          ∃ m < n, G m = true ∧ rel k m = true ∧ ∀ j < n, G j = true → rel k j = true → j ≤ m := by
        intro d
        induction d with
        | zero => intro j hj _ _ h; omega
        | succ d ih =>
          intro j hj hGj hr h
          by_cases hb : ∃ j' < n, G j' = true ∧ rel k j' = true ∧ j < j'
          · obtain ⟨j', h1, h2, h3, h4⟩ := hb
            exact ih j' h1 h2 h3 (by omega)
          · refine ⟨j, hj, hGj, hr, fun j' h1 h2 h3 => ?_⟩
            by_contra hc
            exact hb ⟨j', h1, h2, h3, by omega⟩
      obtain ⟨j, hj, h1, h2⟩ := hex
      obtain ⟨m, h⟩ := hmax n j hj h1 h2 (by omega)
      exact ⟨m, fun _ _ => h⟩
    · exact ⟨0, fun h1 h2 => absurd ⟨h1, h2⟩ hk⟩
  choose host h using key
  exact ⟨host, h⟩

theorem hosts_eq {srt : (Nat × Nat → Nat) → List (Nat × Nat) → List (Nat × Nat)} (hS : IsDesc srt)
    (rel : Nat → Nat → Bool) (n : Nat) (G : Nat → Bool) (host : Nat → Nat) (hh : IsHost rel n G host)
    (own held : List Nat) (hr : RankOk rel n own held) (all : List Nat) (hmem : ∀ x, x ∈ all ↔ x < n ∧ G x = true)
    (hd : all.Pairwise fun a b => b < a) :
    ∃ l : List Nat, hosts srt all (srt Prod.fst (pairs rel own held)) = l.map (fun i => (i, host i)) ∧
      l.Perm (own.filter fun i => !G i) := by
  obtain ⟨sats, hsats⟩ : ∃ sats, sats = srt Prod.snd ((srt Prod.fst (pairs rel own held)).filter fun p =>
    label all p.1 = none ∧ label all p.2 ≠ none) := ⟨_, rfl⟩
  have msats : ∀ i j, (i, j) ∈ sats ↔ i ∈ own ∧ j < n ∧ rel i j = true ∧ G i = false ∧ G j = true := by
    intro i j
    rw [hsats, (hS.perm _ _).mem_iff, List.mem_filter, (hS.perm _ _).mem_iff, mem_pairs]
    simp only [label_eq n G all hmem hd, decide_eq_true_eq]
    constructor
    · rintro ⟨⟨h1, h2, h3⟩, h4, h5⟩
      have hin := hr.own_lt i h1
      have hjn := hr.held_lt j h2
      refine ⟨h1, hjn, h3, ?_, ?_⟩
      · cases hGi : G i with
        | false => rfl
        | true => rw [if_pos ⟨hin, hGi⟩] at h4; cases h4
      · by_contra hc
        rw [if_neg (fun h => hc h.2)] at h5; exact h5 rfl
    · rintro ⟨h1, h2, h3, h4, h5⟩
      refine ⟨⟨h1, hr.ghosts i h1 j h2 h3, h3⟩, ?_, ?_⟩
      · rw [if_neg]; rintro ⟨-, h⟩; rw [h4] at h; cases h
      · rw [if_pos ⟨h2, h5⟩]; simp
  refine ⟨(sats.map Prod.fst).eraseDups, ?_, ?_⟩
  · have e : hosts srt all (srt Prod.fst (pairs rel own held)) =
        (sats.map Prod.fst).eraseDups.filterMap fun i => sats.find? fun p => p.1 = i := by rw [hsats]; rfl
    have e2 : (sats.map Prod.fst).eraseDups.map (fun i => (i, host i)) =
        (sats.map Prod.fst).eraseDups.filterMap (fun i => some (i, host i)) := by
      rw [← List.filterMap_eq_map]; rfl
    rw [e, e2]
    apply List.filterMap_congr
    intro i hi
    rw [List.mem_eraseDups, List.mem_map] at hi
    obtain ⟨⟨a, b⟩, hab, rfl⟩ := hi
    have hab' := (msats a b).mp hab
    have hh' := hh a (hr.own_lt a hab'.1) hab'.2.2.2.1
    refine find_max sats (by rw [hsats]; exact hS.sorted _ _) a (host a) ?_ ?_
    · rw [msats]; exact ⟨hab'.1, hh'.1, hh'.2.2.1, hab'.2.2.2.1, hh'.2.1⟩
    · rintro ⟨c, d⟩ hp rfl
      have := (msats c d).mp hp
      exact hh'.2.2.2 d this.2.1 this.2.2.2.2 this.2.2.1
  · rw [List.perm_ext_iff_of_nodup (nodup_eraseDups _) (hr.nodup.filter _)]
    intro i
    rw [List.mem_eraseDups, List.mem_map, List.mem_filter]
    constructor
    · rintro ⟨⟨a, b⟩, hab, rfl⟩
      have hab' := (msats a b).mp hab
      exact ⟨hab'.1, by simp [hab'.2.2.2.1]⟩
    · rintro ⟨h1, h2⟩
      have h2 : G i = false := by simpa using h2
      have hh' := hh i (hr.own_lt i h1) h2
      exact ⟨(i, host i), (msats _ _).mpr ⟨h1, hh'.1, hh'.2.2.1, h2, hh'.2.1⟩, rfl⟩

theorem sort_rows (n : Nat) (origind : Nat → Nat) (ho : ((List.range n).map origind).Perm (List.range n)) (row : Nat → Row)
    (out : List (Nat × Row)) (hp : out.Perm ((List.range n).map fun i => (origind i, row i))) :
    ((out.mergeSort fun a b => a.1 ≤ b.1).map Prod.snd).length = n ∧
      ∀ k < n, ((out.mergeSort fun a b => a.1 ≤ b.1).map Prod.snd)[origind k]? = some (row k) := by
  obtain ⟨s, hs⟩ : ∃ s, s = out.mergeSort fun a b => decide (a.1 ≤ b.1) := ⟨_, rfl⟩
  have hsp : s.Perm ((List.range n).map fun i => (origind i, row i)) := by rw [hs]; exact (List.mergeSort_perm _ _).trans hp
  have hfst : s.map Prod.fst = List.range n := by
    have h1 : (s.map Prod.fst).Perm (List.range n) := by
      refine (hsp.map Prod.fst).trans ?_
      rw [List.map_map]; exact ho
    have h2 : (s.map Prod.fst).Pairwise (fun a b => a ≤ b) := by
      rw [List.pairwise_map, hs]
      have := List.pairwise_mergeSort (le := fun a b : Nat × Row => decide (a.1 ≤ b.1)) (by intro a b c; simp; omega)
        (by intro a b; simp; omega) out
      exact this.imp fun h => by simpa using h
    exact List.Perm.eq_of_pairwise (le := fun a b : Nat => a ≤ b) (fun a b _ _ h1 h2 => Nat.le_antisymm h1 h2) h2
      (List.pairwise_lt_range.imp fun h => Nat.le_of_lt h) h1
  have hlen : s.length = n := by simpa using congrArg List.length hfst
  rw [← hs]
  refine ⟨by simpa using hlen, fun k hk => ?_⟩
  have hok : origind k < n := by
    have : origind k ∈ (List.range n).map origind := List.mem_map_of_mem (by simpa using hk)
    simpa using ho.mem_iff.mp this
  have hget : (s.map Prod.fst)[origind k]? = some (origind k) := by rw [hfst, List.getElem?_range hok]
  rw [List.getElem?_map] at hget ⊢
  obtain ⟨p, hp1, hp2⟩ := Option.map_eq_some_iff.mp hget
  rw [hp1, Option.map_some]
  have hmem := hsp.mem_iff.mp (List.mem_of_getElem? hp1)
  obtain ⟨i, hi, rfl⟩ := List.mem_map.mp hmem
  have hinj : ((List.range n).map origind).Nodup := ho.nodup_iff.mpr List.nodup_range
  have : i = k := List.inj_on_of_nodup_map hinj hi (by simpa using hk) hp2
  rw [this]

/-- The number of objects that are not chosen and have `k` as host. -/
def satsOf (n : Nat) (G : Nat → Bool) (host : Nat → Nat) (k : Nat) : Nat :=
  ((List.range n).filter fun i => !G i && decide (host i = k)).length

theorem find_map (l : List Nat) (f : Nat → Nat) (i : Nat) :
    ((l.map fun i => (i, f i)).find? fun p => p.1 = i) = if i ∈ l then some (i, f i) else none := by
  induction l with
  | nil => simp
  | cons a l ih =>
    rw [List.map_cons]
    by_cases e : a = i
    · subst e; rw [List.find?_cons_of_pos (by simp), if_pos (by simp)]
    · rw [List.find?_cons_of_neg (by simpa using e), ih]
      have : (i ∈ a :: l) ↔ i ∈ l := by simp [Ne.symm e]
      simp only [this]

/-- The result for each object, in full. -/
theorem cgm_general (srt : (Nat × Nat → Nat) → List (Nat × Nat) → List (Nat × Nat)) (hS : IsDesc srt)
    (rel : Nat → Nat → Bool) (emptyCall : Bool) (origind : Nat → Nat) (n : Nat) (own held : List (List Nat))
    (h : Spread rel n own held) (ho : ((List.range n).map origind).Perm (List.range n))
    (he : emptyCall = true ∨ [] ∉ own) (G : Nat → Bool) (hG : IsGreedy rel n G) (host : Nat → Nat) (hh : IsHost rel n G host) :
    ∃ out, cgm srt rel emptyCall origind own held = .ok out ∧ out.length = n ∧
      ∀ k < n, out[origind k]? = some
        (if G k = true then
          { haloid := if ∃ j < n, G j = true ∧ rel k j = true then some (above n G k : Int) else some (-1),
            nsats := satsOf n G host k, type := 0 }
        else { haloid := some (above n G (host k) : Int), nsats := 0, type := 1 }) := by
  obtain ⟨all, hall⟩ : ∃ all, all = findCentrals srt ((own.zip held).mapIdx fun r oh => localCentrals srt rel own r oh.1 oh.2) := ⟨_, rfl⟩
  obtain ⟨hmem, hd⟩ := findCentrals_spec hS rel n G hG own held h all hall
  obtain ⟨frames, hframes⟩ : ∃ frames : List (List Nat × List (Nat × Nat) × List (Nat × Nat)), frames = (own.zip held).map fun oh =>
      (oh.1, srt Prod.fst (pairs rel oh.1 oh.2), hosts srt all (srt Prod.fst (pairs rel oh.1 oh.2))) := ⟨_, rfl⟩
  obtain ⟨counts, hcounts⟩ : ∃ counts : Nat → Nat, counts = fun k : Nat =>
      (frames.map fun f => (f.2.2.filter fun h => h.2 = k).length).sum := ⟨_, rfl⟩
  have hcgm : cgm srt rel emptyCall origind own held = .ok (((frames.flatMap fun f => f.1.map fun i =>
      (origind i, { haloid := (typeAndLabel all f.2.1 f.2.2 i).1, nsats := counts i,
                    type := (typeAndLabel all f.2.1 f.2.2 i).2 : Row })).mergeSort fun a b => a.1 ≤ b.1).map Prod.snd) := by
    unfold cgm
    rw [if_neg]
    · rw [hcounts, hframes, hall]
    · rintro ⟨h1, h2⟩
      rcases he with he | he
      · exact h1 he
      · exact he h2
  have hzipfst : (own.zip held).map Prod.fst = own := List.map_fst_zip (le_of_eq h.lengths)
  have hc : ∀ k, counts k = satsOf n G host k := by
    intro k
    rw [hcounts, hframes]
    dsimp only
    rw [List.map_map]
    have e1 : (own.zip held).map ((fun f : List Nat × List (Nat × Nat) × List (Nat × Nat) => (f.2.2.filter fun h => h.2 = k).length) ∘
        fun oh => (oh.1, srt Prod.fst (pairs rel oh.1 oh.2), hosts srt all (srt Prod.fst (pairs rel oh.1 oh.2)))) =
        (own.zip held).map fun oh => (oh.1.filter fun i => !G i && decide (host i = k)).length := by
      apply List.map_congr_left
      intro oh hoh
      obtain ⟨l, hl, hlp⟩ := hosts_eq hS rel n G host hh oh.1 oh.2 (h.rank oh hoh) all hmem hd
      dsimp only [Function.comp]
      rw [hl, List.filter_map, List.length_map]
      have := (hlp.filter fun i => decide (host i = k)).length_eq
      rw [List.filter_filter] at this
      simp only [Function.comp_def]
      rw [this]
      congr 1
      apply List.filter_congr
      intro i _
      rw [Bool.and_comm]
    rw [e1]
    have e2 : ((own.zip held).map fun oh => (oh.1.filter fun i => !G i && decide (host i = k)).length) =
        own.map fun o => (o.filter fun i => !G i && decide (host i = k)).length := by
      conv_rhs => rw [← hzipfst]
      rw [List.map_map]; rfl
    rw [e2]
    unfold satsOf
    have e3 : ∀ L : List (List Nat), (L.map fun o => (o.filter fun i => !G i && decide (host i = k)).length).sum =
        (L.flatten.filter fun i => !G i && decide (host i = k)).length := by
      intro L
      induction L with
      | nil => rfl
      | cons a L ih => rw [List.map_cons, List.sum_cons, ih, List.flatten_cons, List.filter_append, List.length_append]
    rw [e3, (h.perm.filter _).length_eq]
  obtain ⟨row, hrow⟩ : ∃ row : Nat → Row, row = fun k => if G k = true then
          { haloid := if ∃ j < n, G j = true ∧ rel k j = true then some (above n G k : Int) else some (-1),
            nsats := satsOf n G host k, type := 0 }
        else { haloid := some (above n G (host k) : Int), nsats := 0, type := 1 } := ⟨_, rfl⟩
  have hout : (frames.flatMap fun f => f.1.map fun i =>
      (origind i, { haloid := (typeAndLabel all f.2.1 f.2.2 i).1, nsats := counts i,
                    type := (typeAndLabel all f.2.1 f.2.2 i).2 : Row })) = own.flatten.map fun i => (origind i, row i) := by
    have e : own.flatten.map (fun i => (origind i, row i)) =
        (own.zip held).flatMap fun oh => oh.1.map fun i => (origind i, row i) := by
      conv_lhs => rw [← hzipfst]
      rw [List.map_flatten, List.map_map, List.flatMap]; rfl
    rw [e, hframes, List.flatMap_map]
    unfold List.flatMap
    congr 1
    apply List.map_congr_left
    intro oh hoh
    apply List.map_congr_left
    intro i hi
    have hr := h.rank oh hoh
    have hin := hr.own_lt i hi
    obtain ⟨l, hl, hlp⟩ := hosts_eq hS rel n G host hh oh.1 oh.2 hr all hmem hd
    dsimp only
    congr 1
    rw [hl]
    unfold typeAndLabel
    rw [find_map, hrow, hc]
    dsimp only
    have hil : i ∈ l ↔ G i = false := by rw [hlp.mem_iff, List.mem_filter]; simp [hi]
    by_cases hGi : G i = true
    · rw [if_neg (by rw [hil, hGi]; simp), if_pos hGi]
      dsimp only
      cases hf : (srt Prod.fst (pairs rel oh.1 oh.2)).find? fun p => decide (p.1 = i ∧ label all p.2 ≠ none) with
      | some p =>
        dsimp only
        have hp1 := List.find?_some hf
        have hp2 := List.mem_of_find?_eq_some hf
        rw [(hS.perm _ _).mem_iff, mem_pairs] at hp2
        simp only [decide_eq_true_eq] at hp1
        rw [label_eq n G all hmem hd, if_pos ⟨hin, hGi⟩, if_pos]
        · rfl
        · refine ⟨p.2, hr.held_lt _ hp2.2.1, ?_, ?_⟩
          · by_contra hcon
            apply hp1.2
            rw [label_eq n G all hmem hd, if_neg fun h => hcon h.2]
          · rw [← hp1.1]; exact hp2.2.2
      | none =>
        dsimp only
        rw [if_neg]
        rintro ⟨j, hj, hGj, hrel⟩
        rw [List.find?_eq_none] at hf
        refine hf (i, j) ?_ ?_
        · rw [(hS.perm _ _).mem_iff, mem_pairs]; exact ⟨hi, hr.ghosts i hi j hj hrel, hrel⟩
        · simp only [decide_eq_true_eq, true_and]
          rw [label_eq n G all hmem hd, if_pos ⟨hj, hGj⟩]; simp
    · have hGi' : G i = false := by simpa using hGi
      have hh' := hh i hin hGi'
      rw [if_pos (hil.mpr hGi'), if_neg hGi]
      dsimp only
      rw [label_eq n G all hmem hd, if_pos ⟨hh'.1, hh'.2.1⟩]
      have h0 : satsOf n G host i = 0 := by
        unfold satsOf
        rw [List.length_eq_zero_iff, List.filter_eq_nil_iff]
        intro a ha
        simp only [Bool.and_eq_true, Bool.not_eq_true', decide_eq_true_eq, not_and]
        intro hGa e
        have := (hh a (by simpa using ha) hGa).2.1
        rw [e, hGi'] at this; cases this
      rw [h0]; rfl
  rw [hout] at hcgm
  obtain ⟨s1, s2⟩ := sort_rows n origind ho row (own.flatten.map fun i => (origind i, row i)) (h.perm.map _)
  refine ⟨_, hcgm, s1, fun k hk => ?_⟩
  rw [s2 k hk, hrow]

/-- **C40**: for every distribution of the objects over ranks, `cgm` returns for each object, in the order of the input:
a central (type 0) iff no higher-ranked central is paired with it; centrals are numbered by descending rank; each satellite
(type 1) has the label of its highest-ranked paired central, and a central counts exactly these satellites. -/
theorem cgm_spec (srt : (Nat × Nat → Nat) → List (Nat × Nat) → List (Nat × Nat)) (hS : IsDesc srt)
    (rel : Nat → Nat → Bool) (hrefl : ∀ k, rel k k = true) (emptyCall : Bool) (origind : Nat → Nat) (n : Nat)
    (own held : List (List Nat)) (h : Spread rel n own held) (ho : ((List.range n).map origind).Perm (List.range n))
    (he : emptyCall = true ∨ [] ∉ own) :
    ∃ (central : Nat → Bool) (host : Nat → Nat) (out : List Row),
      (∀ k < n, central k = true ↔ ∀ j < n, k < j → rel k j = true → central j = false) ∧
      (∀ k < n, central k = false → host k < n ∧ central (host k) = true ∧ rel k (host k) = true ∧ k < host k ∧
        ∀ j < n, central j = true → rel k j = true → j ≤ host k) ∧
      cgm srt rel emptyCall origind own held = .ok out ∧ out.length = n ∧
      ∀ k < n, out[origind k]? = some
        (if central k = true then
          { haloid := some (((List.range n).filter fun j => decide (k < j) && central j).length : Int),
            nsats := ((List.range n).filter fun i => !central i && decide (host i = k)).length, type := 0 }
        else { haloid := some (((List.range n).filter fun j => decide (host k < j) && central j).length : Int),
               nsats := 0, type := 1 }) := by
  obtain ⟨G, hG⟩ := exists_greedy rel n
  obtain ⟨host, hh⟩ := exists_host rel n G hG
  obtain ⟨out, h1, h2, h3⟩ := cgm_general srt hS rel emptyCall origind n own held h ho he G hG host hh
  refine ⟨G, host, out, hG, ?_, h1, h2, ?_⟩
  · intro k hk hGk
    obtain ⟨a, b, c, d⟩ := hh k hk hGk
    refine ⟨a, b, c, ?_, d⟩
    by_contra hc
    have : G k = true := by
      rw [hG k hk]
      intro j hj hkj hr
      by_contra hj'
      have := d j hj (by simpa using hj') hr
      omega
    rw [hGk] at this; cases this
  · intro k hk
    rw [h3 k hk]
    split
    · rename_i hGk
      rw [if_pos ⟨k, hk, hGk, hrefl k⟩]; rfl
    · rfl

/-- **C40**, consequence: no two centrals are paired (for a symmetric relation, in either order). -/
theorem cgm_centrals_apart (rel : Nat → Nat → Bool) (n : Nat) (central : Nat → Bool)
    (hc : ∀ k < n, central k = true ↔ ∀ j < n, k < j → rel k j = true → central j = false)
    (i j : Nat) (hi : i < n) (hj : j < n) (hij : i < j) (h1 : central i = true) (h2 : central j = true) : rel i j = false := by
  by_contra hr
  have := (hc i hi).mp h1 j hj hij (by simpa using hr)
  rw [h2] at this; cases this

theorem sum_satsOf (n : Nat) (G : Nat → Bool) (host : Nat → Nat) (hh : ∀ k < n, G k = false → host k < n) (l : List Nat)
    (hl : ∀ i ∈ l, i < n) :
    ((List.range n).map fun k => (l.filter fun i => !G i && decide (host i = k)).length).sum = (l.filter fun i => !G i).length := by
  induction l with
  | nil => simp
  | cons a l ih =>
    have ih' := ih fun i hi => hl i (by simp [hi])
    have ha := hl a (by simp)
    by_cases hGa : G a = true
    · simp only [List.filter_cons, hGa, Bool.not_true, Bool.false_and, Bool.false_eq_true, if_false]
      exact ih'
    · have hGa' : G a = false := by simpa using hGa
      have hlt := hh a ha hGa'
      simp only [List.filter_cons, hGa', Bool.not_false, Bool.true_and, decide_eq_true_eq, if_true, List.length_cons]
      rw [← ih']
      have e : ∀ m, ((List.range m).map fun k => (if host a = k then a :: l.filter fun i => !G i && decide (host i = k)
            else l.filter fun i => !G i && decide (host i = k)).length).sum =
          ((List.range m).map fun k => (l.filter fun i => !G i && decide (host i = k)).length).sum + if host a < m then 1 else 0 := by
        intro m
        induction m with
        | zero => simp
        | succ m ihm =>
          rw [List.range_succ, List.map_append, List.sum_append, ihm, List.map_append, List.sum_append]
          simp only [List.map_cons, List.map_nil, List.sum_cons, List.sum_nil]
          by_cases e1 : host a = m
          · have c1 : host a < m + 1 := by omega
            have c2 : ¬ host a < m := by omega
            simp only [if_pos e1, if_pos c1, if_neg c2, List.length_cons]; omega
          · by_cases e2 : host a < m
            · have c1 : host a < m + 1 := by omega
              simp only [if_neg e1, if_pos e2, if_pos c1]; omega
            · have c1 : ¬ host a < m + 1 := by omega
              simp only [if_neg e1, if_neg e2, if_neg c1]; omega
      rw [e n, if_pos hlt]

theorem sum_perm_orig (n : Nat) (origind : Nat → Nat) (ho : ((List.range n).map origind).Perm (List.range n)) (out : List Row)
    (hl : out.length = n) : (((List.range n).map fun k => out[origind k]?).Perm (out.map some)) := by
  have e : out.map some = (List.range n).map fun k => out[k]? := by
    apply List.ext_getElem
    · simp [hl]
    · intro i h1 h2
      have hi : i < out.length := by simpa using h1
      simp [hi]
  rw [e]
  have := ho.map fun k => out[k]?
  rwa [List.map_map] at this

/-- **C40**: the satellite counts of all objects sum to the number of satellites. -/
theorem cgm_counts (srt : (Nat × Nat → Nat) → List (Nat × Nat) → List (Nat × Nat)) (hS : IsDesc srt)
    (rel : Nat → Nat → Bool) (emptyCall : Bool) (origind : Nat → Nat) (n : Nat)
    (own held : List (List Nat)) (h : Spread rel n own held) (ho : ((List.range n).map origind).Perm (List.range n))
    (out : List Row) (hout : cgm srt rel emptyCall origind own held = .ok out) :
    (out.map Row.nsats).sum = (out.filter fun r => r.type = 1).length := by
  have he : emptyCall = true ∨ [] ∉ own := by
    by_contra hc
    have : ¬ emptyCall = true ∧ [] ∈ own := by
      constructor
      · exact fun h => hc (Or.inl h)
      · by_contra h; exact hc (Or.inr h)
    unfold cgm at hout
    rw [if_pos this] at hout; cases hout
  obtain ⟨G, hG⟩ := exists_greedy rel n
  obtain ⟨host, hh⟩ := exists_host rel n G hG
  obtain ⟨out', h1, h2, h3⟩ := cgm_general srt hS rel emptyCall origind n own held h ho he G hG host hh
  obtain rfl : out' = out := by rw [h1] at hout; exact Except.ok.inj hout
  have hp := sum_perm_orig n origind ho out' h2
  have hrows : ((List.range n).map fun k => out'[origind k]?) = _ := List.map_congr_left fun k hk => h3 k (by simpa using hk)
  rw [hrows] at hp
  have hsum := (hp.map fun r => (r.map Row.nsats).getD 0).sum_eq
  rw [List.map_map, List.map_map] at hsum
  have e1 : out'.map ((fun r => (r.map Row.nsats).getD 0) ∘ some) = out'.map Row.nsats := by
    apply List.map_congr_left; intro r _; rfl
  rw [e1] at hsum
  rw [← hsum]
  have hlen := (hp.filter fun r => (r.map Row.type).getD 0 = 1).length_eq
  rw [List.filter_map, List.filter_map, List.length_map, List.length_map] at hlen
  have e2 : (out'.filter ((fun r => decide ((r.map Row.type).getD 0 = 1)) ∘ some)) = out'.filter fun r => r.type = 1 := by
    apply List.filter_congr; intro r _; rfl
  rw [e2] at hlen
  rw [← hlen]
  have hs := sum_satsOf n G host (fun k hk hGk => (hh k hk hGk).1) (List.range n) (by simp)
  have e3 : (List.range n).filter ((fun r : Option Row => decide ((r.map Row.type).getD 0 = 1)) ∘ fun k => some
        (if G k = true then
          { haloid := if ∃ j < n, G j = true ∧ rel k j = true then some (above n G k : Int) else some (-1),
            nsats := satsOf n G host k, type := 0 : Row }
        else { haloid := some (above n G (host k) : Int), nsats := 0, type := 1 })) = (List.range n).filter fun i => !G i := by
    apply List.filter_congr
    intro k _
    cases hGk : G k <;> simp [hGk]
  rw [e3, ← hs]
  congr 1
  apply List.map_congr_left
  intro k hk
  dsimp only [Function.comp]
  cases hGk : G k with
  | true => simp [satsOf]
  | false =>
    simp only [Bool.false_eq_true, if_false, Option.map_some, Option.getD_some]
    symm
    rw [List.length_eq_zero_iff, List.filter_eq_nil_iff]
    intro a ha
    simp only [Bool.and_eq_true, Bool.not_eq_true', decide_eq_true_eq, not_and]
    intro hGa e
    have := (hh a (by simpa using ha) hGa).2.1
    rw [e, hGk] at this; cases this

/-- **C40**: the result does not depend on the distribution over ranks, nor on the order in which equal keys are sorted. -/
theorem cgm_independent (srt srt' : (Nat × Nat → Nat) → List (Nat × Nat) → List (Nat × Nat)) (hS : IsDesc srt) (hS' : IsDesc srt')
    (rel : Nat → Nat → Bool) (emptyCall : Bool) (origind : Nat → Nat) (n : Nat) (own held own' held' : List (List Nat))
    (h : Spread rel n own held) (h' : Spread rel n own' held') (ho : ((List.range n).map origind).Perm (List.range n))
    (he : emptyCall = true ∨ ([] ∉ own ∧ [] ∉ own')) :
    cgm srt rel emptyCall origind own held = cgm srt' rel emptyCall origind own' held' := by
  obtain ⟨G, hG⟩ := exists_greedy rel n
  obtain ⟨host, hh⟩ := exists_host rel n G hG
  obtain ⟨out, h1, h2, h3⟩ := cgm_general srt hS rel emptyCall origind n own held h ho (he.imp id And.left) G hG host hh
  obtain ⟨out', h1', h2', h3'⟩ := cgm_general srt' hS' rel emptyCall origind n own' held' h' ho (he.imp id And.right) G hG host hh
  rw [h1, h1']
  congr 1
  apply List.ext_getElem?
  intro m
  by_cases hm : m < n
  · have : m ∈ (List.range n).map origind := ho.mem_iff.mpr (by simpa using hm)
    obtain ⟨k, hk, rfl⟩ := List.mem_map.mp this
    have hk : k < n := by simpa using hk
    rw [h3 k hk, h3' k hk]
  · rw [List.getElem?_eq_none (by omega), List.getElem?_eq_none (by omega)]

/-- **C40**, limit: an object that is not paired with itself nor with any central (the cut on the pair gives a NaN for an object at
the observer's position) is a central but keeps the label `-1`. -/
theorem cgm_no_self_pair (srt : (Nat × Nat → Nat) → List (Nat × Nat) → List (Nat × Nat)) (hS : IsDesc srt)
    (rel : Nat → Nat → Bool) (emptyCall : Bool) (origind : Nat → Nat) (n : Nat)
    (own held : List (List Nat)) (h : Spread rel n own held) (ho : ((List.range n).map origind).Perm (List.range n))
    (he : emptyCall = true ∨ [] ∉ own) (k : Nat) (hk : k < n) (hno : ∀ j < n, rel k j = false) :
    ∃ out row, cgm srt rel emptyCall origind own held = .ok out ∧ out[origind k]? = some row ∧ row.type = 0 ∧ row.haloid = some (-1) := by
  obtain ⟨G, hG⟩ := exists_greedy rel n
  obtain ⟨host, hh⟩ := exists_host rel n G hG
  obtain ⟨out, h1, h2, h3⟩ := cgm_general srt hS rel emptyCall origind n own held h ho he G hG host hh
  have hGk : G k = true := by
    rw [hG k hk]
    intro j hj _ hr
    rw [hno j hj] at hr; cases hr
  refine ⟨out, _, h1, h3 k hk, ?_, ?_⟩
  · rw [if_pos hGk]
  · rw [if_pos hGk]
    dsimp only
    rw [if_neg]
    rintro ⟨j, hj, -, hr⟩
    rw [hno j hj] at hr; cases hr

/-- **C40**, limit: a rank without objects makes the run fail, if kdcount does not call the callback without pairs. -/
theorem cgm_empty_rank (srt : (Nat × Nat → Nat) → List (Nat × Nat) → List (Nat × Nat)) (rel : Nat → Nat → Bool)
    (origind : Nat → Nat) (own held : List (List Nat)) (he : [] ∈ own) :
    cgm srt rel false origind own held = .error .valueError := by
  unfold cgm
  rw [if_pos ⟨by simp, he⟩]

theorem isDesc_mergeSort : IsDesc fun key l => l.mergeSort fun a b => key b ≤ key a where
  perm := fun _ _ => List.mergeSort_perm _ _
  sorted := fun key l => by
    have := List.pairwise_mergeSort (le := fun a b : Nat × Nat => decide (key b ≤ key a)) (by intro a b c; simp; omega)
      (by intro a b; simp; omega) l
    exact this.imp fun h => by simpa using h

/-- A chain 0 - 1 - 2 of pairs, spread over two ranks, with ghosts. -/
theorem chain_spread : Spread (fun i j => decide (i ≤ j + 1 ∧ j ≤ i + 1)) 3 [[1], [2, 0]] [[0, 1, 2], [1, 2, 0]] where
  lengths := rfl
  perm := by decide
  held_lt := by decide
  heldNodup := by decide
  ghosts := by decide

example (out : List Row) (h : cgm (fun key l => l.mergeSort fun a b => key b ≤ key a) (fun i j => decide (i ≤ j + 1 ∧ j ≤ i + 1))
    false (fun i => 2 - i) [[1], [2, 0]] [[0, 1, 2], [1, 2, 0]] = .ok out) :
    out = [⟨some 0, 1, 0⟩, ⟨some 0, 0, 1⟩, ⟨some 1, 0, 0⟩] := by
  obtain ⟨c, ht, out', h1, h2, h3, h4, h5⟩ := cgm_spec _ isDesc_mergeSort (fun i j => decide (i ≤ j + 1 ∧ j ≤ i + 1)) (by simp) false
    (fun i => 2 - i) 3 _ _ chain_spread (by decide) (Or.inr (by decide))
  rw [h] at h3
  obtain rfl := Except.ok.inj h3
  have c2 : c 2 = true := by rw [h1 2 (by omega)]; intro j hj hj'; omega
  have c1 : c 1 = false := by
    by_contra hc
    have := (h1 1 (by omega)).mp (by simpa using hc) 2 (by omega) (by omega) (by decide)
    rw [c2] at this; cases this
  have c0 : c 0 = true := by
    rw [h1 0 (by omega)]
    intro j hj hj' hr
    have : j = 1 := by simp at hr; omega
    rw [this]; exact c1
  obtain ⟨b1, b2, b3, b4, b5⟩ := h2 1 (by omega) c1
  have b6 : ht 1 = 2 := by omega
  have r0 := h5 0 (by omega)
  have r1 := h5 1 (by omega)
  have r2 := h5 2 (by omega)
  rw [if_pos c0] at r0
  rw [if_neg (by simp [c1])] at r1
  rw [if_pos c2] at r2
  rw [b6] at r1
  have hr : List.range 3 = [0, 1, 2] := rfl
  simp [hr, c0, c1, c2, b6, List.filter_cons] at r0 r1 r2
  match out, h4 with
  | [x, y, z], _ => simp at r0 r1 r2; simp [r0, r1, r2]

end NBK.Cgm
