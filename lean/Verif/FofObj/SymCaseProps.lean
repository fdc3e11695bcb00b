import Verif.FofObj.SymProps
import Verif.FofObj.CaseProps
import Mathlib.Logic.Equiv.Basic
import Mathlib.Tactic.FinCases
import Mathlib.Tactic.IntervalCases
import Mathlib.Tactic.NormNum

/-! Concrete cases of C145: the three particles of `CaseProps`, moved, mirrored, in other units, in another order on one rank, and with a longer linking length. -/
set_option linter.unusedSimpArgs false
namespace NBK.FofObj
open NBK

/-- The call of `CaseProps`. -/
def boxCall : Call := ⟨boxEnv, boxSource, boxArgs⟩

theorem boxCall_fits : boxCall.Fits 1 (some boxVec) :=
  ⟨Fof.stableArgsort_isArgsort, Fof.isSort_mergeSort, by simp [boxCall, boxSource], by simp [boxCall, boxSource], by simp [boxCall, boxSource], rfl, rfl, box_decomposed⟩

/-- The particles changed by `f`, in a cube of side `b`, with the linking length `ll`. -/
def changed (f : Part → Part) (b ll : ℚ) : Call :=
  ⟨boxEnv, { boxSource with ranks := boxSource.ranks.map (·.map f), attrs := [("BoxSize", .vec [b, b, b])] }, { boxArgs with linkingLength := ll }⟩

theorem changed_moved (f : Part → Part) (b ll : ℚ) : Moved (Equiv.refl Nat) f boxCall (changed f b ll) := by
  intro p
  show ((boxSource.ranks.map (·.map f)).flatten)[p]? = (boxSource.ranks.flatten[p]?).map f
  rw [← List.map_flatten, List.getElem?_map]

theorem changed_fits (f : Part → Part) (b ll : ℚ) (hf : ∀ x y : Part, Near ll (some ![b, b, b]) (f x).pos (f y).pos ↔ Near 1 (some boxVec) x.pos y.pos) :
    (changed f b ll).Fits ll (some ![b, b, b]) := by
  refine ⟨Fof.stableArgsort_isArgsort, Fof.isSort_mergeSort, by simp [changed, boxSource], by simp [changed, boxSource], by simp [changed, boxSource], rfl, rfl, ?_⟩
  have e : Friends (changed f b ll).s.all ll (some ![b, b, b]) = Friends boxSource.all 1 (some boxVec) := by
    funext p q
    exact propext ((changed_moved f b ll).friends hf p q)
  rw [e]
  exact box_decomposed

/-- A translation by a quarter of the box along each axis. -/
example : ∃ o o', boxCall.Ends o ∧ (changed (fun x => { x with pos := fun i => x.pos i + ![5 / 2, 5 / 2, 5 / 2] i }) 10 1).Ends o' ∧ SameGroups (Equiv.refl Nat) 3 o o' :=
  fof_shift (box := some boxVec) ![5 / 2, 5 / 2, 5 / 2] boxCall_fits (changed_fits _ 10 1 fun x y => by unfold Near; simp only [add_sub_add_right_eq_sub]) rfl (changed_moved _ 10 1)

/-- Mirror images along the first axis. -/
theorem mirrored_near (x y : Vec) : Near 1 (some boxVec) (fun i => (![-1, 1, 1] : Fin 3 → ℤ) i * x i) (fun i => (![-1, 1, 1] : Fin 3 → ℤ) i * y i) ↔ Near 1 (some boxVec) x y := by
  constructor
  · rintro ⟨k, hk⟩
    refine ⟨![-k 0, k 1, k 2], le_of_eq_of_le ?_ hk⟩
    simp [boxVec]
    ring
  · rintro ⟨k, hk⟩
    refine ⟨![-k 0, k 1, k 2], le_of_eq_of_le ?_ hk⟩
    simp [boxVec]
    ring

example : ∃ o o', boxCall.Ends o ∧ (changed (fun x => { x with pos := fun i => (![-1, 1, 1] : Fin 3 → ℤ) i * x.pos i }) 10 1).Ends o' ∧ SameGroups (Equiv.refl Nat) 3 o o' :=
  fof_mirror (box := some boxVec) ![-1, 1, 1] (by intro i; fin_cases i <;> simp) boxCall_fits (changed_fits _ 10 1 fun x y => mirrored_near _ _) rfl (changed_moved _ 10 1)

/-- Images: the particle at 9.8 is given at -0.2. -/
theorem imaged_near (x y : Part) (m : Part → Fin 3 → ℤ) : Near 1 (some boxVec) (fun i => x.pos i + m x i * boxVec i) (fun i => y.pos i + m y i * boxVec i) ↔
    Near 1 (some boxVec) x.pos y.pos := by
  constructor
  · rintro ⟨k, hk⟩
    refine ⟨fun i => k i + m x i - m y i, le_of_eq_of_le ?_ hk⟩
    simp [boxVec]
    ring
  · rintro ⟨k, hk⟩
    refine ⟨fun i => k i - m x i + m y i, le_of_eq_of_le ?_ hk⟩
    simp [boxVec]
    ring

/-- The first image on the left for particles beyond 9. -/
def leftImage (x : Part) (i : Fin 3) : ℤ := if 9 < x.pos i then -1 else 0

example : ∃ o o', boxCall.Ends o ∧ (changed (fun x => { x with pos := fun i => x.pos i + leftImage x i * boxVec i }) 10 1).Ends o' ∧ SameGroups (Equiv.refl Nat) 3 o o' :=
  fof_images (box := some boxVec) leftImage boxCall_fits (changed_fits _ 10 1 fun x y => imaged_near x y leftImage) rfl (changed_moved _ 10 1)

/-- Other units: lengths are 1000 times as large. -/
theorem scaled_near (x y : Vec) : Near 1000 (some ![10000, 10000, 10000]) (fun i => 1000 * x i) (fun i => 1000 * y i) ↔ Near 1 (some boxVec) x y := by
  unfold Near
  refine exists_congr fun k => ?_
  simp only [Option.elim, boxVec, Matrix.cons_val_zero, Matrix.cons_val_one, Matrix.cons_val]
  constructor <;> intro h <;> nlinarith

example : ∃ o o', boxCall.Ends o ∧ (changed (fun x => { x with pos := fun i => 1000 * x.pos i }) 10000 1000).Ends o' ∧ SameGroups (Equiv.refl Nat) 3 o o' := by
  refine fof_units (box := some boxVec) (a := 1000) (by norm_num) boxCall_fits ?_ rfl (changed_moved _ 10000 1000)
  have h := changed_fits (fun x => { x with pos := fun i => 1000 * x.pos i }) 10000 1000 fun x y => scaled_near _ _
  have e : (some boxVec).map (fun b (i : Fin 3) => 1000 * b i) = some ![10000, 10000, 10000] := by
    rw [Option.map_some]
    congr 1
    funext i
    fin_cases i <;> norm_num [boxVec]
  rw [e]
  simpa using h

/-- One rank, with the first two particles exchanged. -/
def swapped : Call :=
  ⟨{ boxEnv with held := fun _ _ _ _ => [[0, 1, 2]], kd := fun _ _ _ _ => [[0, 0, 1]] },
    { boxSource with ranks := [[⟨![1 / 10, 1, 2], ![5, 0, 0], ![0, 0, 0], 2⟩, ⟨![98 / 10, 1, 2], ![3, 0, 0], ![0, 0, 0], 1⟩, ⟨![5, 1, 2], ![7, 0, 0], ![0, 0, 0], 3⟩]] }, boxArgs⟩

theorem swapped_moved : Moved (Equiv.swap 0 1) id boxCall swapped := by
  intro p
  match p with
  | 0 => rfl
  | 1 => rfl
  | 2 => rfl
  | p + 3 =>
    rw [Equiv.swap_apply_of_ne_of_ne (by omega) (by omega)]
    rfl

theorem swapped_fits : swapped.Fits 1 (some boxVec) := by
  refine ⟨Fof.stableArgsort_isArgsort, Fof.isSort_mergeSort, by simp [swapped], by simp [swapped], by simp [swapped, boxSource], rfl, rfl, ?_⟩
  have e : Friends swapped.s.all 1 (some boxVec) = Friends boxSource.all 1 (some boxVec) := by
    funext p q
    have h := swapped_moved.friends (ll := 1) (ll' := 1) (box := some boxVec) (box' := some boxVec) (fun _ _ => Iff.rfl) (Equiv.swap 0 1 p) (Equiv.swap 0 1 q)
    rw [Equiv.swap_apply_self, Equiv.swap_apply_self] at h
    refine propext (h.trans ?_)
    show Friends boxSource.all 1 (some boxVec) _ _ ↔ _
    rw [friends_iff, friends_iff]
    simp only [Equiv.swap_apply_def]
    split_ifs <;> omega
  rw [e]
  have hl : Fof.KdLabels (Friends boxSource.all 1 (some boxVec)) [0, 1, 2] [0, 0, 1] := by
    have := box_decomposed.local_labels
    cases this with
    | cons h _ => exact h
  refine ⟨?_, ?_, ?_, .cons hl .nil⟩
  · intro p hp
    exact ⟨[0, 1, 2], List.mem_singleton.mpr rfl, by simp [swapped] at hp ⊢; omega⟩
  · intro h hh p hp
    rw [List.mem_singleton.mp hh] at hp
    simp [swapped] at hp ⊢
    omega
  · intro p q h
    rw [friends_iff] at h
    exact ⟨[0, 1, 2], List.mem_singleton.mpr rfl, by simp; omega, by simp; omega⟩

example : ∃ o o', boxCall.Ends o ∧ swapped.Ends o' ∧ SameGroups (Equiv.swap 0 1) 3 o o' := fof_layout boxCall_fits swapped_fits rfl swapped_moved

theorem boxCall_halos : boxCall.Halos ![some 10, some 10, some 10] := by
  refine ⟨by simp [boxCall, boxSource], .inr ⟨10, 10, 10, rfl, rfl⟩, fun _ => by simp [boxCall, boxSource, Dict.get], ?_, by simp [boxCall, boxSource]⟩
  intro i L hL p hp
  have hp' : p ∈ boxSource.all := hp
  simp only [boxSource, Source.all, List.flatten_cons, List.flatten_nil, List.append_nil, List.cons_append, List.nil_append, List.mem_cons, List.not_mem_nil, or_false] at hp'
  have hL' : L = 10 := by fin_cases i <;> simp at hL <;> exact hL.symm
  subst hL'
  rcases hp' with rfl | rfl | rfl <;> fin_cases i <;> norm_num

theorem swapped_halos : swapped.Halos ![some 10, some 10, some 10] := by
  refine ⟨by simp [swapped, boxSource], .inr ⟨10, 10, 10, rfl, rfl⟩, fun _ => by simp [swapped, boxSource, Dict.get], ?_, by simp [swapped, boxSource]⟩
  intro i L hL p hp
  have hp' : p ∈ swapped.s.all := hp
  simp only [swapped, Source.all, List.flatten_cons, List.flatten_nil, List.append_nil, List.cons_append, List.nil_append, List.mem_cons, List.not_mem_nil, or_false] at hp'
  have hL' : L = 10 := by fin_cases i <;> simp at hL <;> exact hL.symm
  subst hL'
  rcases hp' with rfl | rfl | rfl <;> fin_cases i <;> norm_num

example : ∃ o o' halos attrs halos' attrs', boxCall.Ends o ∧ swapped.Ends o' ∧ toHalos boxEnv o 3 0 "vir" "cm" "Density" = .ok (halos, attrs) ∧
    toHalos swapped.e o' 3 0 "vir" "cm" "Density" = .ok (halos', attrs') ∧ halos'.flatten.map (·.mass) = halos.flatten.map (·.mass) ∧
    (halos'.flatten.map fun h => (h.mass, h.vel)).Perm (halos.flatten.map fun h => (h.mass, h.vel)) :=
  halos_same boxCall_fits swapped_fits rfl swapped_moved (fun _ _ => Iff.rfl) (fun _ => rfl) boxCall_halos swapped_halos 3 0 "vir" "Density"

/-- With the linking length 5, all three are friends. -/
def longer : Call := ⟨{ boxEnv with kd := fun _ _ _ _ => [[0, 0, 0], [0]] }, boxSource, { boxArgs with linkingLength := 5 }⟩

theorem longer_friends (p q : Nat) : Friends boxSource.all 5 (some boxVec) p q ↔ p < 3 ∧ q < 3 := by
  constructor
  · rintro ⟨x, y, hx, hy, _⟩
    exact ⟨(List.getElem?_eq_some_iff.mp hx).1, (List.getElem?_eq_some_iff.mp hy).1⟩
  · rintro ⟨hp, hq⟩
    have near : ∀ k : ℤ, ∀ x y : Part, x.pos 1 = 1 → y.pos 1 = 1 → x.pos 2 = 2 → y.pos 2 = 2 → (x.pos 0 - y.pos 0 + k * 10) ^ 2 ≤ 5 ^ 2 → Near 5 (some boxVec) x.pos y.pos := by
      intro k x y h1 h2 h3 h4 h
      refine ⟨![k, 0, 0], ?_⟩
      simpa [boxVec, h1, h2, h3, h4] using h
    interval_cases p <;> interval_cases q <;> refine ⟨_, _, rfl, rfl, ?_⟩
    · exact near 0 _ _ rfl rfl rfl rfl (by norm_num)
    · exact near (-1) _ _ rfl rfl rfl rfl (by norm_num)
    · exact near 0 _ _ rfl rfl rfl rfl (by norm_num)
    · exact near 1 _ _ rfl rfl rfl rfl (by norm_num)
    · exact near 0 _ _ rfl rfl rfl rfl (by norm_num)
    · exact near 0 _ _ rfl rfl rfl rfl (by norm_num)
    · exact near 0 _ _ rfl rfl rfl rfl (by norm_num)
    · exact near 0 _ _ rfl rfl rfl rfl (by norm_num)
    · exact near 0 _ _ rfl rfl rfl rfl (by norm_num)

theorem longer_fits : longer.Fits 5 (some boxVec) := by
  refine ⟨Fof.stableArgsort_isArgsort, Fof.isSort_mergeSort, by simp [longer, boxSource], by simp [longer, boxSource], by simp [longer, boxSource], rfl, rfl,
    box_decomposed.covers, box_decomposed.inside, ?_, ?_⟩
  · intro p q h
    have := (longer_friends p q).mp h
    exact ⟨[0, 1, 2], by simp [longer, boxEnv], by simp; omega, by simp; omega⟩
  · refine .cons ⟨rfl, ⟨1, by intro x; simp⟩, ?_⟩ (.cons ⟨rfl, ⟨1, by intro x; simp⟩, ?_⟩ .nil)
    · intro a b p q ha hb
      have hp := List.mem_of_getElem? ha
      have hq := List.mem_of_getElem? hb
      obtain ⟨h1, _⟩ := List.getElem?_eq_some_iff.mp ha
      obtain ⟨h2, _⟩ := List.getElem?_eq_some_iff.mp hb
      simp at h1 h2
      refine ⟨fun _ => .rel _ _ ⟨(longer_friends p q).mpr ?_, hp, hq⟩, fun _ => ?_⟩
      · simp at hp hq
        omega
      · interval_cases a <;> interval_cases b <;> rfl
    · intro a b p q ha hb
      obtain ⟨h1, h2⟩ := List.getElem?_eq_some_iff.mp ha
      obtain ⟨h3, h4⟩ := List.getElem?_eq_some_iff.mp hb
      simp at h1 h3
      subst h1 h3
      simp at h2 h4
      subst h2 h4
      exact ⟨fun _ => .refl _, fun _ => rfl⟩

example : ∃ o o', boxCall.Ends o ∧ longer.Ends o' ∧ ∀ p < 3, (o'.label p = some 0 → o.label p = some 0) ∧ ∀ q < 3, o.Together p q → o'.Together p q :=
  fof_nested boxCall_fits longer_fits rfl (by norm_num) (by norm_num) (le_refl 1)

end NBK.FofObj
