import Verif.Survey.CaseProps

/-!
# `ConvolvedFFTPower` of catalogs (C137): box, metadata, shot noise and grid as sums over the rows
-/
set_option linter.unusedSimpArgs false
namespace NBK.Survey
open NBK

variable {n : Nat} {K : Type} [CommRing K] [Algebra ℚ K]

/-- C137: the box of a catalog that is passed as it is: along every axis the center is in the middle between the first and the last selected object of the randoms (of the data if there are no
randoms), and the size is that of the catalog, or the extent with the padding, rounded up. -/
theorem box_of_rows (mc : Machine n) (hc : 0 < mc.chunk) (id : Nat) (L C : List ℚ) (h : bboxOf mc id = .ok (L, C)) :
    ∃ rows, (rows = if 0 < ((mc.cats id).randoms.map List.length).sum then (mc.cats id).randoms else (mc.cats id).data) ∧ L.length = 3 ∧ C.length = 3 ∧
      ∀ a : Fkp.Axis, ∃ lo hi, lo ∈ rows.flatten ∧ hi ∈ rows.flatten ∧ lo.flag "Selection" = true ∧ hi.flag "Selection" = true ∧
        (∀ r ∈ rows.flatten, r.flag "Selection" = true → lo.pos a ≤ r.pos a ∧ r.pos a ≤ hi.pos a) ∧ axes C a = (lo.pos a + hi.pos a) / 2 ∧
        axes L a = (((mc.cats id).boxSize.map (· a)).getD (⌈(hi.pos a - lo.pos a) * (1 + (mc.cats id).boxPad a)⌉ : ℚ)) := by
  refine ⟨_, rfl, ?_⟩
  unfold bboxOf at h
  simp only at h
  cases hb : Fkp.defineBbox mc.chunk (catOf (mc.cats id) fun r => ⟨r.pos, r.flag "Selection", 0, 0, 0, 0⟩)
      ((catOf (mc.cats id) fun r => ⟨r.pos, r.flag "Selection", 0, 0, 0, 0⟩).get (Fkp.boxSpecies (catOf (mc.cats id) fun r => ⟨r.pos, r.flag "Selection", 0, 0, 0, 0⟩) none)) with
  | error e => rw [hb] at h; cases h
  | ok b =>
    rw [hb] at h
    simp only [Except.ok.injEq, Prod.mk.injEq] at h
    obtain ⟨rfl, rfl⟩ := h
    refine ⟨rfl, rfl, fun a => ?_⟩
    obtain ⟨lo, hi, h1, h2, h3, h4, h5⟩ := Fkp.defineBbox_ok hc hb a
    have hget : ((catOf (mc.cats id) fun r => ⟨r.pos, r.flag "Selection", 0, 0, 0, 0⟩).get
        (Fkp.boxSpecies (catOf (mc.cats id) fun r => ⟨r.pos, r.flag "Selection", 0, 0, 0, 0⟩) none)).all =
        ((if 0 < ((mc.cats id).randoms.map List.length).sum then (mc.cats id).randoms else (mc.cats id).data).flatten.filter fun r => r.flag "Selection").map
          fun r => (⟨r.pos, r.flag "Selection", 0, 0, 0, 0⟩ : Fkp.Row) := by
      have hs : ∀ rows : List (List Raw), (Fkp.Cat.mk (rows.map (·.map fun r => (⟨r.pos, r.flag "Selection", 0, 0, 0, 0⟩ : Fkp.Row))) true true).all =
          (rows.flatten.filter fun r => r.flag "Selection").map fun r => (⟨r.pos, r.flag "Selection", 0, 0, 0, 0⟩ : Fkp.Row) := by
        intro rows
        rw [all_map, List.filter_map]
        rfl
      unfold Fkp.boxSpecies
      simp only
      have hsz : (catOf (mc.cats id) fun r => ⟨r.pos, r.flag "Selection", 0, 0, 0, 0⟩).randoms.csize = ((mc.cats id).randoms.map List.length).sum := by
        unfold catOf
        simp only
        rw [csize_map, List.length_flatten]
      rw [hsz]
      by_cases hp : 0 < ((mc.cats id).randoms.map List.length).sum
      · rw [if_pos hp, if_pos hp]
        exact hs _
      · rw [if_neg hp, if_neg hp]
        exact hs _
    rw [hget] at h1 h2 h3
    obtain ⟨lo', hl, rfl⟩ := List.mem_map.mp h1
    obtain ⟨hi', hh, rfl⟩ := List.mem_map.mp h2
    rw [List.mem_filter] at hl hh
    refine ⟨lo', hi', hl.1, hh.1, hl.2, hh.2, fun r hr hsel => ?_, ?_, ?_⟩
    · exact h3 _ (List.mem_map.mpr ⟨r, List.mem_filter.mpr ⟨hr, hsel⟩, rfl⟩)
    · have : axes [b.2 0, b.2 1, b.2 2] a = b.2 a := by
        fin_cases a <;> rfl
      rw [this]; exact h4
    · have : axes [b.1 0, b.1 1, b.1 2] a = b.1 a := by
        fin_cases a <;> rfl
      rw [this]; exact h5

theorem allSum_rows (m : ConvObj.Mesh) (rows : List (List Raw)) (f : Raw → Fkp.Row) (hf : ∀ r, (f r).sel = r.flag m.selection) (g : Fkp.Row → ℚ) :
    Fkp.allSum ⟨rows.map (·.map f), true, true⟩ g = ((chosen m rows).map fun r => g (f r)).sum := by
  rw [Fkp.allSum_eq, sel_row m rows f hf, List.map_map]
  rfl

/-- What `attrs` of the painted field has for a species: the number of selected rows, the sum of their completeness weights, of the squares of their total weights, and the mean total weight
of a cell. -/
def Described (l : List (String × ℚ)) (name : String) (m : ConvObj.Mesh) (rows : List (List Raw)) (nmesh : List Nat) : Prop :=
  l.lookup (name ++ ".N") = some ((chosen m rows).length : ℚ) ∧ l.lookup (name ++ ".W") = some ((chosen m rows).map fun r => r.num m.compWeight).sum ∧
  l.lookup (name ++ ".W2") = some ((chosen m rows).map fun r => (r.num m.compWeight * r.num m.fkpWeight) ^ 2).sum ∧
  l.lookup (name ++ ".num_per_cell") = some (((chosen m rows).map fun r => r.num m.compWeight * r.num m.fkpWeight).sum / (nmesh.prod : Nat))

theorem selected_length (m : ConvObj.Mesh) (rows : List (List Raw)) :
    ((Fkp.Cat.mk (rows.map (·.map (rowOf m))) true true).selected.map List.length).sum = (chosen m rows).length := by
  rw [← List.length_flatten]
  have := sel_row m rows (rowOf m) (fun _ => rfl) true true
  rw [← Fkp.selected_flatten] at this
  rw [this, List.length_map]

/-- C137: the metadata of the painted field are sums over the selected rows of both species; without randoms only their total weight is there. -/
theorem painted_meta (mc : Machine n) (m : ConvObj.Mesh) (nmesh : List Nat) :
    Described (metaOf mc m nmesh).entries "data" m (mc.cats m.source).data nmesh ∧
    (0 < ((mc.cats m.source).randoms.map List.length).sum → Described (metaOf mc m nmesh).entries "randoms" m (mc.cats m.source).randoms nmesh) ∧
    (((mc.cats m.source).randoms.map List.length).sum = 0 → (metaOf mc m nmesh).entries.lookup "randoms.W" = some 0 ∧ (metaOf mc m nmesh).entries.lookup "randoms.N" = none) := by
  have hd : ∀ (name : String) (rows : List (List Raw)), speciesMeta name ⟨rows.map (·.map (rowOf m)), true, true⟩ nmesh =
      [(name ++ ".N", ((chosen m rows).length : ℚ)), (name ++ ".W", ((chosen m rows).map fun r => r.num m.compWeight).sum),
        (name ++ ".W2", ((chosen m rows).map fun r => (r.num m.compWeight * r.num m.fkpWeight) ^ 2).sum),
        (name ++ ".num_per_cell", ((chosen m rows).map fun r => r.num m.compWeight * r.num m.fkpWeight).sum / (nmesh.prod : Nat))] := by
    intro name rows
    unfold speciesMeta Fkp.weightedTotal
    rw [selected_length, allSum_rows m rows (rowOf m) (fun _ => rfl), allSum_rows m rows (rowOf m) (fun _ => rfl), allSum_rows m rows (rowOf m) (fun _ => rfl)]
    rfl
  have hsz : (meshOf mc m).cat.randoms.csize = ((mc.cats m.source).randoms.map List.length).sum := by
    unfold meshOf catOf
    simp only
    rw [csize_map, List.length_flatten]
  have hmeta : (metaOf mc m nmesh).entries = speciesMeta "data" ⟨(mc.cats m.source).data.map (·.map (rowOf m)), true, true⟩ nmesh ++
      if 0 < ((mc.cats m.source).randoms.map List.length).sum then speciesMeta "randoms" ⟨(mc.cats m.source).randoms.map (·.map (rowOf m)), true, true⟩ nmesh
      else [("randoms.W", Fkp.weightedTotal ⟨(mc.cats m.source).randoms.map (·.map (rowOf m)), true, true⟩)] := by
    unfold metaOf
    simp only [hsz]
    rfl
  rw [hmeta, hd]
  refine ⟨⟨rfl, rfl, rfl, rfl⟩, fun hp => ?_, fun hz => ?_⟩
  · rw [if_pos hp, hd]
    exact ⟨rfl, rfl, rfl, rfl⟩
  · rw [if_neg (by omega)]
    refine ⟨?_, rfl⟩
    show some (Fkp.weightedTotal _) = some 0
    unfold Fkp.weightedTotal
    rw [allSum_rows m _ (rowOf m) (fun _ => rfl)]
    have : (mc.cats m.source).randoms.flatten = [] := by
      rw [← List.length_eq_zero_iff, List.length_flatten]; exact hz
    simp [chosen, this]

/-- C137: the shot noise: the squares of the completeness weights times both FKP weights, summed over the selected data and, times `alpha ** 2`, over the selected randoms, over `randoms.norm`. -/
theorem shot_rows (mc : Machine n) (m1 m2 : ConvObj.Mesh) (a rn : ℚ) (hr : rn ≠ 0) :
    shotOf (pairOf mc m1 m2) (some a) (some rn) =
      some ((((chosen m1 (mc.cats m1.source).data).map fun r => r.num m1.compWeight ^ 2 * r.num m1.fkpWeight * r.num m2.fkpWeight).sum +
        ((chosen m1 (mc.cats m1.source).randoms).map fun r => r.num m1.compWeight ^ 2 * r.num m1.fkpWeight * r.num m2.fkpWeight).sum * a ^ 2) / rn) := by
  unfold shotOf Fkp.shotnoise pairOf catOf
  simp only [Option.map_some, Option.getD_some, Fkp.div]
  rw [allSum_rows m1 _ (pairRow m1 m2) (fun _ => rfl), allSum_rows m1 _ (pairRow m1 m2) (fun _ => rfl)]
  simp [hr]
  rfl

/-- C137: the spherical harmonics are taken at the centers of the cells, half a cell from the center of the box. -/
theorem offset_axis (m : ConvObj.Mesh) (i : Nat) (c L : ℚ) (N : Nat) (h1 : m.boxCenter[i]? = some c) (h2 : m.pmBox[i]? = some L) (h3 : m.nmesh[i]? = some N) :
    (offset m)[i]? = some (c + L / N / 2) := by
  unfold offset
  rw [List.getElem?_zipWith, List.getElem?_zipWith, h1, h2, h3]
  simp only [Option.some.injEq]
  ring

/-- The catalogs of the case: the randoms reach from -1 to 1 along the first axis and are less wide along the others. -/
example : (0 < machA.chunk) ∧ bboxOf machA 0 = .ok ([3, 1, 1], [0, 0, 0]) ∧ (0 < ((machA.cats 0).randoms.map List.length).sum) := by decide +kernel

/-- A survey that is not centered, with different centers along the axes. -/
example : bboxOf (⟨fun _ => { data := [], randoms := [[obj 1 5, obj 3 9]] }, 10, []⟩ : Machine 2) 0 = .ok ([3, 5, 5], [2, 7, 7]) := by decide +kernel

end NBK.Survey
