import Verif.MeshFile.Model
import Mathlib.Data.List.Perm.Basic
import Mathlib.Data.List.Induction
import Mathlib.Tactic.ByContra

set_option linter.unusedSimpArgs false

/-! C92: a mesh that is saved and loaded has the same value in every cell, on any number of ranks. -/
namespace NBK.MeshFile
variable {α : Type}

/-- The ranks hold every one of `n` cells once. -/
def Covers (D : Layout) (n : Nat) : Prop := D.flatten.Perm (List.range n)

/-- The cells of a field. -/
def layout (F : Field α) : Layout := F.map fun l => l.map (·.1)

theorem pieces_flatten (ns : List Nat) : ∀ l : List α, l.length = ns.sum → (pieces ns l).flatten = l := by
  induction ns with
  | nil => intro l h; rw [List.eq_nil_of_length_eq_zero h]; rfl
  | cons n ns ih =>
    intro l h
    rw [pieces, List.flatten_cons, ih, List.take_append_drop]
    rw [List.length_drop, h, List.sum_cons]; omega

/-- The values in C order. -/
def sorted (F : Field α) : List (Nat × α) := F.flatten.insertionSort fun a b => a.1 ≤ b.1

theorem sorted_fst (F : Field α) (n : Nat) (h : Covers (layout F) n) : (sorted F).map (·.1) = List.range n := by
  have hp : ((sorted F).map (·.1)).Perm (List.range n) := by
    refine ((List.perm_insertionSort _ _).map _).trans ?_
    have : F.flatten.map (·.1) = (layout F).flatten := by rw [layout, List.map_flatten]
    rw [this]; exact h
  refine List.Perm.eq_of_pairwise (le := fun (a b : Nat) => a ≤ b) ?_ ?_ ?_ hp
  · intro a b _ _ h1 h2; omega
  · rw [List.pairwise_map]
    have : Std.Total (fun a b : Nat × α => a.1 ≤ b.1) := ⟨fun a b => Nat.le_total _ _⟩
    have : IsTrans (Nat × α) (fun a b => a.1 ≤ b.1) := ⟨fun a b c h1 h2 => Nat.le_trans h1 h2⟩
    exact List.pairwise_insertionSort _ _
  · exact List.pairwise_lt_range.imp fun h => Nat.le_of_lt h

theorem save_eq (F : Field α) : save F = (sorted F).map (·.2) := by
  unfold save ravel
  rw [pieces_flatten]
  · rfl
  · rw [List.length_map, List.length_insertionSort, List.length_flatten]

theorem sorted_length (F : Field α) (n : Nat) (h : Covers (layout F) n) : (sorted F).length = n := by
  have := congrArg List.length (sorted_fst F n h)
  simpa using this

theorem sorted_get (F : Field α) (n : Nat) (h : Covers (layout F) n) (i : Nat) (v : α) :
    (sorted F)[i]? = some (i, v) ↔ (i, v) ∈ F.flatten := by
  have hp : (sorted F).Perm F.flatten := List.perm_insertionSort _ _
  have hk : ∀ (j : Nat) (p : Nat × α), (sorted F)[j]? = some p → p.1 = j := by
    intro j p hj
    have h1 : ((sorted F).map (·.1))[j]? = some p.1 := by rw [List.getElem?_map, hj]; rfl
    rw [sorted_fst F n h, List.getElem?_range (by
      have := (List.getElem?_eq_some_iff.mp hj).1
      rwa [sorted_length F n h] at this)] at h1
    exact (Option.some.inj h1).symm
  constructor
  · intro hi
    exact hp.mem_iff.mp (List.mem_of_getElem? hi)
  · intro hm
    obtain ⟨j, hj⟩ := List.mem_iff_getElem?.mp (hp.mem_iff.mpr hm)
    have : i = j := hk j _ hj
    rw [← this] at hj; exact hj

/-- C92: the file of a mesh with `n` cells has `n` values, and the value number `i` is that of the cell `i` in C order,
however the cells are spread over the ranks. -/
theorem file_spec (F : Field α) (n : Nat) (h : Covers (layout F) n) :
    (save F).length = n ∧ ∀ i v, (save F)[i]? = some v ↔ (i, v) ∈ F.flatten := by
  refine ⟨by rw [save_eq, List.length_map, sorted_length F n h], ?_⟩
  intro i v
  rw [← sorted_get F n h, save_eq, List.getElem?_map]
  constructor
  · intro he
    obtain ⟨p, hp, rfl⟩ := Option.map_eq_some_iff.mp he
    have h1 : ((sorted F).map (·.1))[i]? = some p.1 := by rw [List.getElem?_map, hp]; rfl
    rw [sorted_fst F n h, List.getElem?_range (by
      have := (List.getElem?_eq_some_iff.mp hp).1
      rwa [sorted_length F n h] at this)] at h1
    rw [hp, Option.some.inj h1]
  · intro he; rw [he]; rfl

/-- C92: the file does not depend on the number of ranks or on the cells they hold. -/
theorem file_ranks (F G : Field α) (n : Nat) (hF : Covers (layout F) n) (hp : F.flatten.Perm G.flatten) :
    save F = save G := by
  have hG : Covers (layout G) n := by
    refine List.Perm.trans ?_ hF
    have e : ∀ H : Field α, (layout H).flatten = H.flatten.map (·.1) := fun H => by rw [layout, List.map_flatten]
    rw [e, e]; exact (hp.map _).symm
  apply List.ext_getElem?
  intro i
  apply Option.ext
  intro v
  have a := (file_spec F n hF).2 i v
  have b := (file_spec G n hG).2 i v
  exact a.trans (hp.mem_iff.trans b.symm)

/-! ### Reading -/

theorem mapIdx_parts (D : Layout) : ∀ (file : List α) (s : Nat),
    (D.mapIdx fun r cells => (file.drop (s + start D r)).take cells.length).flatten =
      (file.drop s).take (D.map List.length).sum := by
  induction D with
  | nil => intro file s; simp
  | cons c D ih =>
    intro file s
    have e : ∀ r, start (c :: D) (r + 1) = c.length + start D r := fun r => by simp [start]
    have e0 : start (c :: D) 0 = 0 := by simp [start]
    rw [List.mapIdx_cons, List.flatten_cons]
    simp only [e, e0, Nat.add_zero]
    have := ih file (s + c.length)
    simp only [Nat.add_assoc] at this
    rw [this, List.map_cons, List.sum_cons, ← List.drop_drop, ← List.take_add]

theorem parts_flatten (D : Layout) (file : List α) (h : (D.map List.length).sum = file.length) :
    (readParts D file).flatten = file := by
  have := mapIdx_parts D file 0
  simp only [Nat.zero_add] at this
  unfold readParts
  rw [this, h]; simp

theorem mapM_ok {β γ : Type} (f : β → Except Err γ) (g : β → γ) (l : List β) (h : ∀ x ∈ l, f x = .ok (g x)) :
    l.mapM f = .ok (l.map g) := by
  induction l with
  | nil => rfl
  | cons a l ih =>
    rw [List.mapM_cons, h a (by simp), ih fun x hx => h x (by simp [hx])]
    rfl

theorem unravel_ok (D : Layout) (flat : List (List α)) (f : List α) (hf : flat.flatten = f)
    (h : ∀ i ∈ D.flatten, i < f.length) :
    ∃ L, unravel D flat = .ok L ∧ layout L = D ∧ ∀ l ∈ L, ∀ p ∈ l, f[p.1]? = some p.2 := by
  rcases f with _ | ⟨x, f'⟩
  · have he : ∀ c ∈ D, c = [] := by
      intro c hc
      by_contra hne
      obtain ⟨a, ha⟩ := List.exists_mem_of_ne_nil c hne
      exact absurd (h a (List.mem_flatten.mpr ⟨c, hc, ha⟩)) (by simp)
    refine ⟨D.map fun _ => [], ?_, ?_, ?_⟩
    · unfold unravel
      apply mapM_ok
      intro c hc
      rw [he c hc]; rfl
    · unfold layout
      rw [List.map_map]
      conv_rhs => rw [← List.map_id D]
      exact List.map_congr_left fun c hc => by rw [he c hc]; rfl
    · intro l hl p hp
      obtain ⟨_, _, rfl⟩ := List.mem_map.mp hl
      simp at hp
  · generalize x :: f' = f at hf h
    let g : Nat → Nat × α := fun i => (i, (f[i]?).getD x)
    have hg : ∀ i ∈ D.flatten, f[i]? = some (g i).2 := by
      intro i hi
      have := h i hi
      simp [g, List.getElem?_eq_getElem this]
    refine ⟨D.map fun c => c.map g, ?_, ?_, ?_⟩
    · unfold unravel
      apply mapM_ok
      intro c hc
      apply mapM_ok
      intro i hi
      rw [hf, hg i (List.mem_flatten.mpr ⟨c, hc, hi⟩)]
    · unfold layout
      rw [List.map_map]
      conv_rhs => rw [← List.map_id D]
      apply List.map_congr_left
      intro c _
      simp [g, Function.comp_def]
    · intro l hl p hp
      obtain ⟨c, hc, rfl⟩ := List.mem_map.mp hl
      obtain ⟨i, hi, rfl⟩ := List.mem_map.mp hp
      exact hg i (List.mem_flatten.mpr ⟨c, hc, hi⟩)

theorem covers_sum (D : Layout) (n : Nat) (h : Covers D n) : (D.map List.length).sum = n := by
  have := h.length_eq
  rwa [List.length_flatten, List.length_range] at this

theorem covers_lt (D : Layout) (n : Nat) (h : Covers D n) : ∀ i ∈ D.flatten, i < n := fun i hi =>
  List.mem_range.mp (h.mem_iff.mp hi)

/-- C92: a mesh of `n` cells is saved on some ranks and loaded on others, as a real or as a complex field. Loading succeeds,
every rank has its cells, and every cell has the value it had when it was saved. -/
theorem roundtrip (F : Field α) (n : Nat) (hF : Covers (layout F) n) (D : Layout) (hD : Covers D n) :
    ∃ L, loadReal D (save F) = .ok L ∧ loadComplex D (save F) = .ok L ∧ layout L = D ∧ L.flatten.Perm F.flatten := by
  obtain ⟨hlen, hget⟩ := file_spec F n hF
  have hs : (D.map List.length).sum = (save F).length := by rw [covers_sum D n hD, hlen]
  obtain ⟨L, h1, h2, h3⟩ := unravel_ok D (readParts D (save F)) (save F) (parts_flatten D _ hs)
    (by rw [hlen]; exact covers_lt D n hD)
  refine ⟨L, h1, ?_, h2, ?_⟩
  · unfold loadComplex; rw [if_pos hs]; exact h1
  · have e : ∀ H : Field α, (layout H).flatten = H.flatten.map (·.1) := fun H => by rw [layout, List.map_flatten]
    have nd : ∀ H : Field α, Covers (layout H) n → H.flatten.Nodup := by
      intro H hH
      have : (H.flatten.map (·.1)).Nodup := by
        rw [← e]; exact hH.nodup_iff.mpr List.nodup_range
      exact List.Nodup.of_map _ this
    have hL : Covers (layout L) n := by rw [h2]; exact hD
    have sub : ∀ p ∈ L.flatten, p ∈ F.flatten := by
      intro p hp
      obtain ⟨l, hl, hpl⟩ := List.mem_flatten.mp hp
      exact (hget p.1 p.2).mp (h3 l hl p hpl)
    have hll : F.flatten.length ≤ L.flatten.length := by
      have a := (hF.length_eq); have b := hL.length_eq
      rw [e, List.length_map] at a b
      omega
    exact (List.subperm_of_subset (nd L hL) sub).perm_of_length_le hll

/-- C92: reading a complex mesh on a layout with another number of cells is an error. -/
theorem size_checked (D : Layout) (n : Nat) (hD : Covers D n) (file : List α) (h : file.length ≠ n) :
    loadComplex D file = .error .assertion := by
  unfold loadComplex
  rw [if_neg (by rw [covers_sum D n hD]; exact fun e => h e.symm)]

/-- C92: space and precision of the mesh are those of the field that was saved. -/
theorem dtype_kept (p : Prec) (complex : Bool) : meshDtype (fieldDtype p complex) = (complex, p) := by
  cases p <;> cases complex <;> rfl

/-! ### Arrays -/

/-- C92: an `ArrayMesh` has the values of the array of `root` in every cell, on any number of ranks, for every root, and
whatever the other ranks pass. -/
theorem array_values (D : Layout) (flats : List (List α)) (root : Nat) (a : List α) (hr : flats[root]? = some a)
    (hD : Covers D a.length) :
    ∃ L, arrayMesh D root flats = .ok L ∧ layout L = D ∧ ∀ l ∈ L, ∀ p ∈ l, a[p.1]? = some p.2 := by
  have hf : (flats.mapIdx fun r a => if r = root then a else []).flatten = a := by
    have key : ∀ (fl : List (List α)) (k : Nat), (fl.mapIdx fun r a => if r + k = root then a else []).flatten =
        if k ≤ root then (fl[root - k]?).getD [] else [] := by
      intro fl
      induction fl with
      | nil => intro k; simp
      | cons b fl ih =>
        intro k
        rw [List.mapIdx_cons, List.flatten_cons]
        have := ih (k + 1)
        simp only [Nat.add_assoc, Nat.add_comm 1 k] at this ⊢
        rw [this]
        by_cases h0 : 0 + k = root
        · have hk : ¬ k + 1 ≤ root := by omega
          rw [if_pos h0, if_neg hk, if_pos (by omega)]
          have : root - k = 0 := by omega
          rw [this]; simp
        · rw [if_neg h0, List.nil_append]
          by_cases hk : k + 1 ≤ root
          · rw [if_pos hk, if_pos (by omega)]
            have : root - k = (root - (k + 1)) + 1 := by omega
            rw [this]; simp
          · rw [if_neg hk, if_neg (by omega)]
    have := key flats 0
    simp only [Nat.add_zero, Nat.zero_le, if_true, Nat.sub_zero, hr] at this
    simpa using this
  exact unravel_ok D _ a hf (covers_lt D _ hD)

/-- C92, partial: an `ArrayMesh` of the complex array of a mesh has the shape of the mesh if and only if the last dimension
is even; missing: odd sizes, see `odd_cells`. -/
theorem complex_shape_partial (s : List Nat) (n : Nat) :
    irfftShape (rfftShape (s ++ [n])) = s ++ [n] ↔ n % 2 = 0 := by
  simp [irfftShape, rfftShape]
  omega

/-- C92 fails for odd sizes: the array of a mesh of 5 cells a side becomes a mesh with 4 cells along the last axis. -/
theorem odd_cells : rfftShape [5, 5, 5] = [5, 5, 3] ∧ arrayNmesh true [5, 5, 3] = .ok [5, 5, 4] := ⟨rfl, rfl⟩

/-- C92: arrays in two and three dimensions are accepted, others are not. -/
theorem array_dims (s : List Nat) : arrayNmesh false s = .ok s ↔ s.length = 2 ∨ s.length = 3 := by
  unfold arrayNmesh
  simp only [Bool.false_eq_true, if_false]
  split <;> simp_all

/-- The theorems are not empty: four cells on two ranks, and on three ranks in another order. -/
theorem example_layouts : Covers (layout [[(2, 'c'), (0, 'a')], [(1, 'b'), (3, 'd')]]) 4 ∧ Covers [[3], [], [0, 2, 1]] 4 ∧
    save [[(2, 'c'), (0, 'a')], [(1, 'b'), (3, 'd')]] = ['a', 'b', 'c', 'd'] ∧
    (loadReal [[3], [], [0, 2, 1]] ['a', 'b', 'c', 'd']).toOption = some [[(3, 'd')], [], [(0, 'a'), (2, 'c'), (1, 'b')]] := by
  refine ⟨?_, ?_, ?_, ?_⟩
  · unfold Covers; decide +kernel
  · unfold Covers; decide +kernel
  · decide +kernel
  · decide +kernel

end NBK.MeshFile
