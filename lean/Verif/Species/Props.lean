import Verif.Species.Model
import Verif.Catalog.Props
import Mathlib.Data.List.Nodup

/-!
# C53: species columns
-/
set_option linter.unusedSimpArgs false
namespace NBK.Species
open NBK.Catalog

theorem splitSlash_ne_nil (l : List Char) : splitSlash l ≠ [] := by
  cases l with
  | nil => simp [splitSlash]
  | cons c cs =>
    unfold splitSlash
    split
    · simp
    · split <;> simp

theorem splitSlash_noslash (l : List Char) : splitSlash l = [l] ↔ '/' ∉ l := by
  induction l with
  | nil => simp [splitSlash]
  | cons c cs ih =>
    unfold splitSlash
    by_cases hc : c = '/'
    · simp [hc, splitSlash_ne_nil]
    · simp only [hc, if_false, List.mem_cons, not_or]
      have hc' : ¬ '/' = c := fun e => hc e.symm
      simp only [hc', not_false_eq_true, true_and]
      rw [← ih]
      match hm : splitSlash cs with
      | [] => exact absurd hm (splitSlash_ne_nil cs)
      | f :: fs => simp

theorem splitSlash_two (l a b : List Char) :
    splitSlash l = [a, b] ↔ l = a ++ '/' :: b ∧ '/' ∉ a ∧ '/' ∉ b := by
  induction l generalizing a with
  | nil => simp [splitSlash]
  | cons c cs ih =>
    unfold splitSlash
    by_cases hc : c = '/'
    · subst hc
      simp only [if_true, List.cons.injEq]
      constructor
      · rintro ⟨rfl, h⟩
        have hb : cs = b := by
          have : '/' ∉ cs := by
            intro hm
            cases hs : splitSlash cs with
            | nil => exact splitSlash_ne_nil cs hs
            | cons f fs =>
              -- a list with a slash splits into at least two fields
              have : ∀ l : List Char, '/' ∈ l → 2 ≤ (splitSlash l).length := by
                intro l hl
                induction l with
                | nil => simp at hl
                | cons d ds ihd =>
                  unfold splitSlash
                  by_cases hd : d = '/'
                  · simp only [hd, if_true, List.length_cons]
                    have := List.length_pos_iff.mpr (splitSlash_ne_nil ds); omega
                  · simp only [hd, if_false]
                    have hl' : '/' ∈ ds := by
                      rcases List.mem_cons.mp hl with h | h
                      · exact absurd h.symm hd
                      · exact h
                    have := ihd hl'
                    match hm2 : splitSlash ds with
                    | [] => rw [hm2] at this; simp at this
                    | g :: gs => rw [hm2] at this; simpa using this
              have := this cs hm
              rw [h] at this; simp at this
          have := (splitSlash_noslash cs).mpr this
          rw [this] at h; simpa using h
        subst hb
        refine ⟨by simp, by simp, (splitSlash_noslash cs).mp h⟩
      · rintro ⟨h1, h2, h3⟩
        cases a with
        | nil =>
          simp at h1; subst h1
          exact ⟨rfl, (splitSlash_noslash cs).mpr h3⟩
        | cons d ds =>
          simp at h1
          exact absurd (by simp [h1.1.symm]) h2
    · simp only [hc, if_false]
      match hm : splitSlash cs with
      | [] => exact absurd hm (splitSlash_ne_nil cs)
      | f :: fs =>
        simp only [List.cons.injEq]
        constructor
        · rintro ⟨rfl, rfl⟩
          obtain ⟨h1, h2, h3⟩ := (ih f).mp hm
          refine ⟨by simp [h1], ?_, h3⟩
          intro h
          rcases List.mem_cons.mp h with h | h
          · exact hc h.symm
          · exact h2 h
        · rintro ⟨h1, h2, h3⟩
          cases a with
          | nil => simp at h1; exact absurd h1.1 hc
          | cons d ds =>
            simp at h1
            obtain ⟨rfl, h1⟩ := h1
            have := (ih ds).mpr ⟨h1, fun h => h2 (by simp [h]), h3⟩
            rw [hm] at this
            simp at this
            simp [this]

/-- C53: a key is accepted iff it is `species + "/" + column` with a valid species name, and neither part contains a
further slash; then it is taken apart into these two parts. Everything else is a ValueError. -/
theorem splitColumn_ok_iff (key : String) (species : List String) (s c : String) :
    splitColumn key species = .ok (s, c) ↔
      key = s ++ "/" ++ c ∧ s ∈ species ∧ '/' ∉ s.toList ∧ '/' ∉ c.toList := by
  have hkey : key = s ++ "/" ++ c ↔ key.toList = s.toList ++ '/' :: c.toList := by
    constructor
    · rintro rfl; simp
    · intro h
      have := congrArg String.ofList h
      rw [String.ofList_toList] at this
      rw [this, ← String.toList_inj]
      simp
  rw [hkey]
  unfold splitColumn
  constructor
  · intro h
    split at h
    · rename_i a b hs
      split at h
      · simp only [Except.ok.injEq, Prod.mk.injEq] at h
        obtain ⟨rfl, rfl⟩ := h
        obtain ⟨h1, h2, h3⟩ := (splitSlash_two _ _ _).mp hs
        rename_i hm
        simpa using ⟨h1, hm, h2, h3⟩
      · cases h
    · cases h
  · rintro ⟨h1, h2, h3, h4⟩
    have := (splitSlash_two key.toList s.toList c.toList).mpr ⟨h1, h3, h4⟩
    rw [this]
    simp [h2]

theorem splitColumn_error (key : String) (species : List String) (e : Err)
    (h : splitColumn key species = .error e) : e = .valueError := by
  unfold splitColumn at h
  split at h
  · split at h
    · cases h
    · cases h; rfl
  · cases h; rfl

/-- The positive part as stated in C53 needs names without slashes: a column (or species) whose name contains a slash is
never accepted. -/
theorem slash_names_rejected (species : List String) (s c : String) (h : '/' ∈ s.toList ∨ '/' ∈ c.toList) (s' c' : String) :
    splitColumn (s ++ "/" ++ c) species ≠ .ok (s', c') := by
  intro he
  obtain ⟨h1, _, h3, h4⟩ := (splitColumn_ok_iff _ _ _ _).mp he
  have := congrArg String.toList h1
  simp only [String.toList_append] at this
  have hcnt := congrArg (List.count '/') this
  have e1 : ("/" : String).toList = ['/'] := rfl
  simp only [List.count_append, e1, List.count_eq_zero_of_not_mem h3, List.count_eq_zero_of_not_mem h4,
    List.count_singleton] at hcnt
  have e2 : 0 < List.count '/' s.toList ∨ 0 < List.count '/' c.toList := by
    rcases h with h | h
    · exact Or.inl (List.count_pos_iff.mpr h)
    · exact Or.inr (List.count_pos_iff.mpr h)
  simp at hcnt
  omega

variable {ρ V : Type}

theorem source_mem {S : Sources} {s : String} {j : Nat} (h : source S s = some j) : (s, j) ∈ S := by
  unfold source at h
  cases hf : S.find? (fun p => decide (p.1 = s)) with
  | none => rw [hf] at h; cases h
  | some p =>
    rw [hf] at h
    have h1 := List.mem_of_find?_eq_some hf
    have h2 := List.find?_some hf
    simp at h h2
    obtain ⟨a, b⟩ := p
    simp at h h2
    subst h; subst h2; exact h1

/-- State after construction: the species' catalogs are distinct memory owners. -/
structure Good (S : Sources) (h : Heap ρ V) : Prop where
  nodup : (names S).Nodup
  own : ∀ p ∈ S, owner h.base p.2 = p.2
  distinct : (S.map (·.2)).Nodup

theorem source_inj {S : Sources} {h : Heap ρ V} (g : Good S h) {s s' : String} {j : Nat} (h1 : source S s = some j)
    (h2 : source S s' = some j) : s = s' := by
  have m1 := source_mem h1
  have m2 := source_mem h2
  obtain ⟨a, ha, ea⟩ := List.getElem_of_mem m1
  obtain ⟨b, hb, eb⟩ := List.getElem_of_mem m2
  have : a = b := by
    refine (List.Nodup.getElem_inj_iff g.distinct (hi := by simpa using ha) (hj := by simpa using hb)).mp ?_
    simp [ea, eb]
  subst this
  rw [ea] at eb
  simpa using congrArg Prod.fst eb

/-- Specification: the array in force for a key, looking only at the updates with exactly this key. -/
def assignedM (n : Nat) (isHard : Bool) (key : String) : Option (List ρ) → List (MUpd ρ) → Option (List ρ)
  | cur, [] => cur
  | cur, .set k l :: us => assignedM n isHard key (if k = key ∧ l.length = n then some l else cur) us
  | cur, .del k :: us => assignedM n isHard key (if k = key ∧ isHard = false then none else cur) us

theorem key_inj {S : List String} {k s c s' c' : String} (h : splitColumn k S = .ok (s, c)) (hk : k = s' ++ "/" ++ c')
    (h3 : '/' ∉ s'.toList) (h4 : '/' ∉ c'.toList) : s = s' ∧ c = c' := by
  obtain ⟨h1, h2, _, _⟩ := (splitColumn_ok_iff _ _ _ _).mp h
  by_cases hm : s' ∈ S
  · have := (splitColumn_ok_iff k S s' c').mpr ⟨hk, hm, h3, h4⟩
    rw [h] at this
    simpa using this
  · have := (splitColumn_ok_iff k (s' :: S) s' c').mpr ⟨hk, by simp, h3, h4⟩
    have h' := (splitColumn_ok_iff k (s' :: S) s c).mpr ⟨h1, by simp [h2], by assumption, by assumption⟩
    rw [h'] at this
    simpa using this

theorem source_isSome {S : Sources} {s : String} (h : s ∈ names S) : ∃ j, source S s = some j := by
  unfold names at h
  obtain ⟨p, hp, rfl⟩ := List.mem_map.mp h
  have : (S.find? (fun q => decide (q.1 = p.1))).isSome := by
    rw [List.find?_isSome]; exact ⟨p, hp, by simp⟩
  obtain ⟨q, hq⟩ := Option.isSome_iff_exists.mp this
  exact ⟨q.2, by simp [source, hq]⟩

theorem translate_target (S : Sources) (u : MUpd ρ) (v : Upd ρ V) (h : translate S u = some v) :
    ∃ s c j, source S s = some j ∧ v.target = j ∧ '/' ∉ s.toList ∧ '/' ∉ c.toList ∧
      ((∃ l, u = .set (s ++ "/" ++ c) l ∧ v = .set j c (.arr l)) ∨ (u = .del (s ++ "/" ++ c) ∧ v = .del j c)) := by
  cases u with
  | set key l =>
    simp only [translate] at h
    split at h
    · cases h
    · rename_i s c hs
      obtain ⟨h1, h2, h3, h4⟩ := (splitColumn_ok_iff _ _ _ _).mp hs
      cases hj : source S s with
      | none => rw [hj] at h; cases h
      | some j =>
        rw [hj] at h
        simp at h
        subst h; subst h1
        exact ⟨s, c, j, hj, rfl, h3, h4, Or.inl ⟨l, rfl, rfl⟩⟩
  | del key =>
    simp only [translate] at h
    split at h
    · cases h
    · rename_i s c hs
      obtain ⟨h1, h2, h3, h4⟩ := (splitColumn_ok_iff _ _ _ _).mp hs
      cases hj : source S s with
      | none => rw [hj] at h; cases h
      | some j =>
        rw [hj] at h
        simp at h
        subst h; subst h1
        exact ⟨s, c, j, hj, rfl, h3, h4, Or.inr ⟨rfl, rfl⟩⟩

theorem translate_isSome (S : Sources) (s c : String) (hs : s ∈ names S) (h3 : '/' ∉ s.toList) (h4 : '/' ∉ c.toList)
    (l : List ρ) : translate (V := V) S (.set (s ++ "/" ++ c) l) ≠ none ∧
      translate (ρ := ρ) (V := V) S (.del (s ++ "/" ++ c)) ≠ none := by
  obtain ⟨j, hj⟩ := source_isSome hs
  have := (splitColumn_ok_iff (s ++ "/" ++ c) (names S) s c).mpr ⟨rfl, hs, h3, h4⟩
  simp [translate, this, hj]

theorem append_slash_inj {s c s' c' : String} (h3 : '/' ∉ s.toList) (h4 : '/' ∉ c.toList) (h3' : '/' ∉ s'.toList)
    (h4' : '/' ∉ c'.toList) (h : s ++ "/" ++ c = s' ++ "/" ++ c') : s = s' ∧ c = c' := by
  have := (splitColumn_ok_iff (s ++ "/" ++ c) [s] s c).mpr ⟨rfl, by simp, h3, h4⟩
  exact key_inj this h h3' h4'

theorem runM_col (S : Sources) (us : List (MUpd ρ)) (h : Heap ρ V) (g : Good S h) (s c : String) (j : Nat)
    (hj : source S s = some j) (h3 : '/' ∉ s.toList) (h4 : '/' ∉ c.toList) :
    ((runM S h us).obj j).cls = (h.obj j).cls ∧ ((runM S h us).obj j).size = (h.obj j).size ∧
    ((runM S h us).obj j).over c =
      assignedM (h.obj j).size ((h.obj j).cls.hard c).isSome (s ++ "/" ++ c) ((h.obj j).over c) us := by
  induction us generalizing h with
  | nil => exact ⟨rfl, rfl, rfl⟩
  | cons u us ih =>
    have hsm : s ∈ names S := List.mem_map.mpr ⟨(s, j), source_mem hj, rfl⟩
    have hown : owner h.base j = j := g.own _ (source_mem hj)
    cases ht : translate (V := V) S u with
    | none =>
      have e : runM S h (u :: us) = runM S h us := by simp [runM, List.filterMap_cons, ht]
      have e2 : assignedM (h.obj j).size ((h.obj j).cls.hard c).isSome (s ++ "/" ++ c) ((h.obj j).over c) (u :: us)
          = assignedM (h.obj j).size ((h.obj j).cls.hard c).isSome (s ++ "/" ++ c) ((h.obj j).over c) us := by
        cases u with
        | set k l =>
          have : k ≠ s ++ "/" ++ c := by rintro rfl; exact (translate_isSome S s c hsm h3 h4 l).1 ht
          simp only [assignedM, this, false_and, if_false]
        | del k =>
          have : k ≠ s ++ "/" ++ c := by rintro rfl; exact (translate_isSome (ρ := ρ) S s c hsm h3 h4 []).2 ht
          simp only [assignedM, this, false_and, if_false]
      rw [e, e2]
      exact ih h g
    | some v =>
      have e : runM S h (u :: us) = runM S (step h v) us := by simp [runM, List.filterMap_cons, ht, run]
      have g' : Good S (step h v) := ⟨g.nodup, by rw [owner_step]; exact g.own, g.distinct⟩
      obtain ⟨b1, b2, b3⟩ := ih (step h v) g'
      obtain ⟨s', c', j', hj', htv, h3', h4', huv⟩ := translate_target S u v ht
      have hown' : owner h.base j' = j' := g.own _ (source_mem hj')
      have key : ((step h v).obj j).cls = (h.obj j).cls ∧ ((step h v).obj j).size = (h.obj j).size ∧
          ((step h v).obj j).over c =
          assignedM (h.obj j).size ((h.obj j).cls.hard c).isSome (s ++ "/" ++ c) ((h.obj j).over c) [u] := by
        by_cases hjj : j' = j
        · have hss := source_inj g hj' (hjj ▸ hj)
          subst hss; subst hjj
          obtain ⟨a1, a2, a3⟩ := step_same h v j' (by rw [htv, hown]) c
          refine ⟨a1, a2, a3.trans ?_⟩
          have hcc : (s' ++ "/" ++ c' = s' ++ "/" ++ c) ↔ c' = c :=
            ⟨fun h => (append_slash_inj h3' h4' h3 h4 h).2, fun h => by rw [h]⟩
          rcases huv with ⟨l, rfl, rfl⟩ | ⟨rfl, rfl⟩
          · simp only [assigned, assignedM, hcc]
          · simp only [assigned, assignedM, hcc]
        · have e2 := obj_step_other h v j (Or.inr (by rw [htv, hown']; exact hjj))
          rw [e2]
          refine ⟨rfl, rfl, ?_⟩
          have hne : s' ++ "/" ++ c' ≠ s ++ "/" ++ c := by
            intro hh
            have := (append_slash_inj h3' h4' h3 h4 hh).1
            subst this
            rw [hj] at hj'; simp at hj'; exact hjj hj'.symm
          rcases huv with ⟨l, rfl, rfl⟩ | ⟨rfl, rfl⟩
          · simp only [assignedM, hne, false_and, if_false]
          · simp only [assignedM, hne, false_and, if_false]
      obtain ⟨k1, k2, k3⟩ := key
      rw [e]
      refine ⟨b1.trans k1, b2.trans k2, ?_⟩
      rw [b3, k1, k2, k3]
      cases u <;> simp only [assignedM]

/-- C53, reading after any history of updates through the multi-species catalog: `cat['s/c']` is the last array of the
right length assigned to exactly this key (and not deleted), else the species' own column, whatever was done with
other species or other columns. -/
theorem species_read (S : Sources) (us : List (MUpd ρ)) (h : Heap ρ V) (g : Good S h) (s c : String) (j : Nat)
    (hj : source S s = some j) (h3 : '/' ∉ s.toList) (h4 : '/' ∉ c.toList) :
    getM S (runM S h us) (s ++ "/" ++ c) =
      match assignedM (h.obj j).size ((h.obj j).cls.hard c).isSome (s ++ "/" ++ c) ((h.obj j).over c) us with
      | some l => .ok l
      | none => match (h.obj j).cls.hard c with
        | some l => .ok l
        | none => match (h.obj j).cls.dflt c with
          | some f => .ok (f (h.obj j).size)
          | none => .error .keyError := by
  have hsm : s ∈ names S := List.mem_map.mpr ⟨(s, j), source_mem hj, rfl⟩
  have hown : owner h.base j = j := g.own _ (source_mem hj)
  have hsp := (splitColumn_ok_iff (s ++ "/" ++ c) (names S) s c).mpr ⟨rfl, hsm, h3, h4⟩
  obtain ⟨b1, b2, b3⟩ := runM_col S us h g s c j hj h3 h4
  unfold getM
  rw [hsp]
  simp only [hj, getCol]
  have hb : (runM S h us).base = h.base := run_base _ _
  rw [hb, hown]
  unfold Obj.get
  rw [b1, b2, b3]
  generalize assignedM _ _ _ _ us = a
  cases a with
  | some l => rfl
  | none =>
    simp only
    cases (h.obj j).cls.hard c with
    | some l => rfl
    | none => rfl

/-- C53, rejection: a key that is not `species/column` for a valid species is rejected by read, set and delete, and
nothing changes. -/
theorem species_reject (S : Sources) (h : Heap ρ V) (key : String) (l : List ρ)
    (hk : ¬ ∃ s c, key = s ++ "/" ++ c ∧ s ∈ names S ∧ '/' ∉ s.toList ∧ '/' ∉ c.toList) :
    getM S h key = .error .valueError ∧ runM S h [.set key l] = h ∧ runM S h [.del key] = h := by
  have he : splitColumn key (names S) = .error .valueError := by
    cases hs : splitColumn key (names S) with
    | error e => rw [splitColumn_error _ _ _ hs]
    | ok p =>
      obtain ⟨s, c⟩ := p
      exact absurd ⟨s, c, (splitColumn_ok_iff _ _ _ _).mp hs⟩ hk
  refine ⟨by simp [getM, he], ?_, ?_⟩
  · simp [runM, translate, he, run]
  · simp [runM, translate, he, run]

/-! Construction -/

theorem attrsView_attrsOf (h : Heap ρ V) (i k : Nat) (hv : Valid h) : attrsView (attrsOf h i).1 k = attrsView h k := by
  unfold attrsOf
  cases h1 : h.attrs i with
  | some r => rfl
  | none =>
    simp only [attrsView]
    by_cases hk : k = i
    · subst hk; simp [put, h1]
    · cases h2 : h.attrs k with
      | none => simp [put, hk, h2]
      | some r =>
        have := hv.attrs k r h2
        have : r ≠ h.ndict := by omega
        simp [put, hk, h2, this]

theorem copy_frame (h : Heap ρ V) (i : Nat) (hv : Valid h) (hi : i < h.nobj) (h' : Heap ρ V) (j : Nat)
    (hc : copy h i = .ok (h', j)) :
    j = h.nobj ∧ h'.nobj = h.nobj + 1 ∧ Valid h' ∧ h'.base j = none ∧
    (∀ k, k < h.nobj → h'.obj k = h.obj k ∧ h'.base k = h.base k ∧ attrsView h' k = attrsView h k) := by
  unfold copy at hc
  cases h1 : h.attrs i with
  | none => rw [h1] at hc; cases hc
  | some r =>
    rw [h1] at hc
    simp only [alloc, Except.ok.injEq, Prod.mk.injEq, Nat.add_sub_cancel] at hc
    obtain ⟨rfl, rfl⟩ := hc
    refine ⟨rfl, rfl, ⟨?_, ?_⟩, by simp [put], ?_⟩
    · intro a b hab
      simp only [put] at hab
      split at hab
      · simp at hab; simp; omega
      · have := hv.attrs a b hab; simp; omega
    · intro a b hab
      simp only [put] at hab
      split at hab
      · cases hab
      · exact hv.base a b hab
    · intro k hk
      have hne : k ≠ h.nobj := by omega
      refine ⟨by simp [put, hne], by simp [put, hne], ?_⟩
      simp only [attrsView, put, hne, if_false]
      cases h2 : h.attrs k with
      | none => rfl
      | some r' =>
        have := hv.attrs k r' h2
        have : r' ≠ h.ndict := by omega
        simp [this]

theorem owner_congr (b b' : Nat → Option Nat) (n : Nat) (hb : ∀ k, k < n → b k = b' k) (i : Nat) (hi : i < n) :
    owner b i = owner b' i := by
  induction i using Nat.strongRecOn with
  | ind i ih =>
    rw [owner, owner, hb i hi]
    split
    · rfl
    · split
      · rename_i x _ hlt; exact ih x hlt (by omega)
      · rfl

theorem mkSources_spec (L : List (String × Nat)) (h : Heap ρ V) (hv : Valid h) (hL : ∀ p ∈ L, p.2 < h.nobj)
    (h' : Heap ρ V) (S : Sources) (hc : mkSources h L = .ok (h', S)) :
    Valid h' ∧ h.nobj ≤ h'.nobj ∧ names S = L.map (·.1) ∧
    (∀ k, k < h.nobj → h'.obj k = h.obj k ∧ h'.base k = h.base k ∧ attrsView h' k = attrsView h k) ∧
    (∀ p ∈ S, h.nobj ≤ p.2 ∧ p.2 < h'.nobj ∧ h'.base p.2 = none) ∧ (S.map (·.2)).Nodup ∧
    (∀ (a : Nat) (n : String) (i j : Nat), L[a]? = some (n, i) → S[a]? = some (n, j) →
      ∀ c, getCol h' j c = getCol h i c) := by
  induction L generalizing h h' S with
  | nil =>
    simp [mkSources] at hc
    obtain ⟨rfl, rfl⟩ := hc
    exact ⟨hv, Nat.le_refl _, rfl, fun _ _ => ⟨rfl, rfl, rfl⟩, by simp, by simp, by simp⟩
  | cons p L ih =>
    obtain ⟨n, i⟩ := p
    have hi : i < h.nobj := hL (n, i) (by simp)
    unfold mkSources at hc
    obtain ⟨f1, f2, f3, f4⟩ := attrsOf_frame h i
    have hv1 := attrsOf_valid h i hv
    have hav := fun k => attrsView_attrsOf h i k hv
    generalize hg : (attrsOf h i).1 = g at *
    cases hcp : copy g i with
    | error e => rw [hcp] at hc; cases hc
    | ok q =>
      obtain ⟨h2, j⟩ := q
      rw [hcp] at hc
      simp only at hc
      obtain ⟨c1, c2, c3, c4, c5⟩ := copy_frame g i hv1 (by omega) h2 j hcp
      obtain ⟨d1, _, _, _, _⟩ := copy_independent g i hv1 (by omega) h2 j hcp
      cases hms : mkSources h2 L with
      | error e => rw [hms] at hc; cases hc
      | ok q =>
        obtain ⟨h3, S'⟩ := q
        rw [hms] at hc
        simp at hc
        obtain ⟨rfl, rfl⟩ := hc
        obtain ⟨e1, e2, e3, e4, e5, e6, e7⟩ := ih h2 c3 (fun p hp => by have := hL p (by simp [hp]); omega) _ _ hms
        have hframe : ∀ k, k < h.nobj → h3.obj k = h.obj k ∧ h3.base k = h.base k ∧ attrsView h3 k = attrsView h k := by
          intro k hk
          obtain ⟨x1, x2, x3⟩ := e4 k (by omega)
          obtain ⟨y1, y2, y3⟩ := c5 k (by omega)
          refine ⟨by rw [x1, y1, f1], by rw [x2, y2, f2], by rw [x3, y3, hav k]⟩
        have hj : h3.obj j = h2.obj j ∧ h3.base j = none := by
          obtain ⟨x1, x2, x3⟩ := e4 j (by omega)
          exact ⟨x1, by rw [x2, c4]⟩
        have hown3 : owner h3.base j = j := by rw [owner, hj.2]
        have hown2 : owner h2.base j = j := by rw [owner, c4]
        refine ⟨e1, by omega, by simp [names] at e3 ⊢; exact e3, hframe, ?_, ?_, ?_⟩
        · intro p hp
          rcases List.mem_cons.mp hp with rfl | hp
          · exact ⟨by simp; omega, by simp; omega, hj.2⟩
          · obtain ⟨x1, x2, x3⟩ := e5 p hp
            exact ⟨by omega, x2, x3⟩
        · simp only [List.map_cons, List.nodup_cons]
          refine ⟨?_, e6⟩
          intro hm
          obtain ⟨p, hp, hpj⟩ := List.mem_map.mp hm
          have := (e5 p hp).1
          omega
        · intro a n' i' j' hLa hSa c
          cases a with
          | zero =>
            simp at hLa hSa
            obtain ⟨rfl, rfl⟩ := hLa
            obtain ⟨_, rfl⟩ := hSa
            have := (d1 c).1
            simp only [getCol, hown3, hown2, hj.1] at this ⊢
            rw [this, f1, f2]
          | succ a =>
            simp at hLa hSa
            rw [e7 a n' i' j' hLa hSa c]
            have hi' : i' < h.nobj := hL (n', i') (by simp [List.mem_of_getElem? hLa])
            have ho : owner h2.base i' = owner h.base i' :=
              owner_congr _ _ h.nobj (fun k hk => by rw [(c5 k (by omega)).2.1, f2]) i' hi'
            have hle := owner_le h.base i'
            unfold getCol
            rw [ho, (c5 (owner h.base i') (by omega)).1, f1]

/-- C53, construction: accepted iff names are unique and there is one per catalog; the species show the columns of the
catalogs passed in; the catalogs passed in are not modified, neither by the construction nor by any later update
through the multi-species catalog. -/
theorem multi_spec (h : Heap ρ V) (ns : List String) (cats : List Nat) (hv : Valid h) (hcat : ∀ i ∈ cats, i < h.nobj)
    (h' : Heap ρ V) (S : Sources) (hm : multi h ns cats = .ok (h', S)) :
    ns.Nodup ∧ ns.length = cats.length ∧ names S = ns ∧ Good S h' ∧
    (∀ (a : Nat) (i j : Nat), cats[a]? = some i → (S.map (·.2))[a]? = some j → ∀ c, getCol h' j c = getCol h i c) ∧
    (∀ k, k < h.nobj → ∀ us : List (MUpd ρ),
      (∀ c, getCol (runM S h' us) k c = getCol h k c) ∧ attrsView (runM S h' us) k = attrsView h k) := by
  unfold multi at hm
  split at hm
  · cases hm
  split at hm
  · cases hm
  rename_i hnd hlen
  simp only [ne_eq, not_not] at hnd hlen
  have hz : ∀ p ∈ ns.zip cats, p.2 < h.nobj := fun p hp => hcat _ (List.of_mem_zip hp).2
  obtain ⟨e1, e2, e3, e4, e5, e6, e7⟩ := mkSources_spec _ h hv hz h' S hm
  have hn : names S = ns := by rw [e3]; simp [List.map_fst_zip, hlen]
  have hg : Good S h' := ⟨hn ▸ hnd, fun p hp => by rw [owner, (e5 p hp).2.2], e6⟩
  refine ⟨hnd, hlen, hn, hg, ?_, ?_⟩
  · intro a i j hi hj c
    rw [List.getElem?_map] at hj
    cases hS : S[a]? with
    | none => rw [hS] at hj; simp at hj
    | some q =>
      obtain ⟨n, j'⟩ := q
      rw [hS] at hj; simp at hj; subst hj
      have hna : ns[a]? = some n := by
        rw [← hn]; simp [names, hS]
      have : (ns.zip cats)[a]? = some (n, i) := by
        rw [List.getElem?_zip_eq_some]; exact ⟨hna, hi⟩
      exact e7 a n i j' this hS c
  · intro k hk us
    have hvs : ∀ v ∈ us.filterMap (translate (V := V) S), (∀ i' k' x, v ≠ .attr i' k' x) ∧
        owner h'.base v.target ≠ owner h'.base k := by
      intro v hv'
      obtain ⟨u, hu, ht⟩ := List.mem_filterMap.mp hv'
      obtain ⟨s, c, j, hj, htv, _, _, huv⟩ := translate_target S u v ht
      refine ⟨?_, ?_⟩
      · rcases huv with ⟨l, rfl, rfl⟩ | ⟨rfl, rfl⟩ <;> intros <;> simp
      · have := e5 _ (source_mem hj)
        have ho := hg.own _ (source_mem hj)
        have hle := owner_le h'.base k
        simp only at ho this
        rw [htv, ho]; omega
    have frame : ∀ (vs : List (Upd ρ V)) (g : Heap ρ V), g.base = h'.base →
        (∀ v ∈ vs, (∀ i' k' x, v ≠ .attr i' k' x) ∧ owner h'.base v.target ≠ owner h'.base k) →
        (run g vs).obj (owner h'.base k) = g.obj (owner h'.base k) ∧ attrsView (run g vs) k = attrsView g k := by
      intro vs
      induction vs with
      | nil => intros; exact ⟨rfl, rfl⟩
      | cons v vs ih =>
        intro g hgb hvs
        have h1 := ih (step g v) (by rw [owner_step, hgb]) (fun v' hv' => hvs v' (by simp [hv']))
        obtain ⟨hna, hno⟩ := hvs v (by simp)
        have h2 := obj_step_other g v (owner h'.base k) (Or.inr (by rw [hgb]; exact hno))
        have h3 := (step_attrs_col g v hna k).2.2
        exact ⟨h1.1.trans h2, h1.2.trans h3⟩
    obtain ⟨g1, g2⟩ := frame _ h' rfl hvs
    obtain ⟨x1, x2, x3⟩ := e4 k hk
    refine ⟨fun c => ?_, g2.trans x3⟩
    have hb : (runM S h' us).base = h'.base := run_base _ _
    have ho : owner h'.base k = owner h.base k := owner_congr _ _ h.nobj (fun m hm => (e4 m hm).2.1) k hk
    have hle := owner_le h.base k
    unfold getCol
    rw [hb]
    show ((run h' _).obj _).get c = _
    rw [g1, ho, (e4 _ (by omega)).1]

/-- Non-vacuity: two species built from one heap; a column is set through the multi-species catalog. -/
example : ∃ (h h' : Heap Nat Nat) (S : Sources), Valid h ∧ multi h ["data", "randoms"] [0, 1] = .ok (h', S) ∧
    getM S (runM S h' [.set "data/x" [5, 6], .set "randoms/x" [1, 2, 3], .set "data" [1, 2]]) "data/x" = .ok [5, 6] := by
  refine ⟨⟨fun _ => ⟨⟨fun _ => none, fun _ => none⟩, 2, fun c => if c = "x" then some [7, 8] else none⟩,
    fun _ => none, fun _ => none, fun _ _ => none, 2, 0⟩, _, _, ⟨?_, ?_⟩, rfl, ?_⟩
  · intro i r h; simp at h
  · intro i b h; simp at h
  · have hm := multi_spec (ρ := Nat) (V := Nat) ⟨fun _ => ⟨⟨fun _ => none, fun _ => none⟩, 2,
        fun c => if c = "x" then some [7, 8] else none⟩, fun _ => none, fun _ => none, fun _ _ => none, 2, 0⟩
        ["data", "randoms"] [0, 1] ⟨by intro i r h; simp at h, by intro i b h; simp at h⟩ (by simp) _ _ rfl
    have := species_read _ [.set "data/x" [5, 6], .set "randoms/x" [1, 2, 3], .set "data" [1, 2]] _ hm.2.2.2.1
      "data" "x" 2 rfl (by decide) (by decide)
    rw [show "data" ++ "/" ++ "x" = "data/x" from rfl] at this
    rw [this]
    rfl

end NBK.Species
