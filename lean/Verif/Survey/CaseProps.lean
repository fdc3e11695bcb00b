import Verif.Survey.ShiftProps
import Mathlib.Tactic.NormNum

/-!
# `ConvolvedFFTPower` of catalogs (C137): a mesh of two cells, and what goes wrong
-/
set_option linter.unusedSimpArgs false
set_option synthInstance.maxSize 1000
set_option synthInstance.maxHeartbeats 200000
namespace NBK.Survey
open NBK

/-- Two cells along the first axis, the nearest grid point; all modes point along this axis, and a cell is before or behind the observer. -/
def world : World 2 ℚ where
  win _ _ _ p x := if (if p 0 < 0 then 0 else 1) = x then 1 else 0
  ph k x := if k = 1 ∧ x = 1 then -1 else 1
  conj := RingHom.id ℚ
  re := LinearMap.id
  im := 0
  comp _ k := if k = 1 then 2 else 1
  ylms off ell := [(fun x => (2 * ell + 1) / 12 * if ell % 2 = 1 ∧ off.headD 0 + (x : Nat) < 0 then -1 else 1, fun _ => 1)]
  coord _ _ k := ⟨((k : Nat) : ℚ) ^ 2, (k : Nat), 0, false, 1, ⟨0, 0⟩⟩
  hermitian := true
  pi := 3
  root q := q

def legendre (off : List ℚ) (ell : Nat) (_ x : Fin 2) : ℚ := if ell % 2 = 1 ∧ off.headD 0 + (x : Nat) < 0 then -1 else 1

theorem legendre_holds : Legendre world legendre := by
  constructor
  · intro off k x
    unfold legendre
    rw [if_neg (by omega)]
  · intro off ell k x _
    show (4 * 3 : ℚ) * ((((2 * (ell : ℚ) + 1) / 12 * if ell % 2 = 1 ∧ off.headD 0 + (x : Nat) < 0 then -1 else 1)) |> fun v => ([1 * v] : List ℚ).sum) = _
    unfold legendre
    simp only [List.sum_cons, List.sum_nil]
    ring

/-- An object with its place, whether it is selected, and its number density. -/
def obj (x y : ℚ) (sel : Bool := true) (nz : ℚ := 2) : Raw :=
  ⟨![x, y, y], fun _ => sel, fun c => if c = "FKPWeight" then 1 / 2 else if c = "NZ" then nz else 1⟩

/-- Two objects of data, four randoms and one that is not selected. -/
def surveyA : Survey where
  data := [[obj (-1) 0, obj (-1 / 2) 0]]
  randoms := [[obj (-1) (2 / 5), obj (-1 / 2) (-2 / 5), obj (1 / 2) (1 / 5), obj 1 0, obj 7 0 false]]

/-- The same rows on two ranks. -/
def surveyB : Survey where
  data := [[obj (-1 / 2) 0], [obj (-1) 0]]
  randoms := [[obj 1 0, obj 7 0 false, obj (-1) (2 / 5)], [obj (1 / 2) (1 / 5), obj (-1 / 2) (-2 / 5)]]

/-- The same rows on two ranks, one of which has no selected ones. -/
def surveyC : Survey := { surveyA with randoms := [[obj (-1) (2 / 5), obj (-1 / 2) (-2 / 5), obj (1 / 2) (1 / 5), obj 1 0], [obj 7 0 false]] }

def machA : Machine 2 := ⟨fun _ => surveyA, 100, [[[0, 1]]]⟩
def machB : Machine 2 := ⟨fun _ => surveyB, 3, [[[1]], [[0]]]⟩
def machC : Machine 2 := ⟨fun _ => surveyC, 100, [[[0, 1]]]⟩

/-- A catalog as a source. -/
def catA : ConvObj.Cat := ⟨0, 0, ["Weight", "FKPWeight"], some [2, 1, 1], "NZ", [1 / 50, 1 / 50, 1 / 50], .error .other⟩

def gA : ConvObj.Args := { first := .catalog catA, poles := .many [2, 0, 1], dk := some 1, kmax := some 3 }

/-- The numbers of a result. -/
def view (o : ConvObj.Obj) : List (String × List Binned.Val) × Option (List ℚ) × Option ℚ × Option ℚ × Option ℚ × List ℚ × List ℚ :=
  (o.poles.data.map fun c => (c.name, c.vals), o.edges, o.attrs.alpha, o.attrs.randomsNorm, o.attrs.shotnoise, o.attrs.args.boxSize, o.attrs.args.boxCenter)

/-- The error of a result. -/
def failure (r : ConvObj.Heap × Except ConvObj.Err ConvObj.Obj) : Option ConvObj.Err :=
  match r.2 with
  | .ok _ => none
  | .error e => some e

theorem five {α : Type} (a b c d e : α) : [a, b, c, d, e].Perm [d, e, a, c, b] := by
  have h : ([0, 1, 2, 3, 4] : List (Fin 5)).Perm [3, 4, 0, 2, 1] := by decide
  exact h.map ![a, b, c, d, e]

theorem layouts_same : SameLayout machA machB :=
  ⟨fun _ => ⟨List.Perm.swap _ _ _, five _ _ _ _ _, rfl, rfl⟩, List.Perm.swap _ _ _⟩

theorem layouts_same' : SameLayout machA machC := ⟨fun _ => ⟨List.Perm.refl _, List.Perm.refl _, rfl, rfl⟩, List.Perm.refl _⟩

/-- C137: a case. -/
theorem case_values : (call world machA [] gA).2.toOption.map view = some ([("k", [.fin 0, .fin 1]), ("power_0.real", [.fin 0, .fin 16]),
    ("power_0.imag", [.fin 0, .fin 0]), ("power_1.real", [.fin 0, .fin 48]), ("power_1.imag", [.fin 0, .fin 0]), ("power_2.real", [.fin 0, .fin 80]),
    ("power_2.imag", [.fin 0, .fin 0]), ("modes", [.fin 1, .fin 1])], some [0, 1, 2], some (1 / 2), some 1, some (3 / 4), [3, 1, 1], [0, 0, 0]) := by
  decide +kernel

/-- The box is found on both layouts: the hypotheses of `call_ranks_partial` hold, with different chunk sizes. -/
theorem case_ranks : call world machA [] gA = call world machB [] gA := by
  refine call_ranks_partial world layouts_same (by decide) (by decide) [] gA ⟨⟨([3, 1, 1], [0, 0, 0]), ?_⟩, ⟨([3, 1, 1], [0, 0, 0]), ?_⟩⟩ ?_ ?_
  · decide +kernel
  · decide +kernel
  · intro s hs; cases hs
  · intro _ _ _ _ _; left; show (0 : ℚ) < 1; norm_num

/-- C137, negation: the result depends on the ranks: if a rank has rows but none that is selected the box is not found. -/
theorem ranks_fail : ∃ (mc mc' : Machine 2) (g : ConvObj.Args), SameLayout mc mc' ∧ mc.chunk = mc'.chunk ∧ 0 < mc.chunk ∧
    (call world mc [] g).2.toOption.isSome = true ∧ failure (call world mc' [] g) = some .valueError :=
  ⟨machA, machC, gA, layouts_same', rfl, by decide, by decide +kernel, by decide +kernel⟩

/-! ## Randoms without weight -/

section
variable {n : Nat} {K : Type} [CommRing K] [Algebra ℚ K]

theorem not_finite (w : World n K) (hn : 0 < n) (mc : Machine n) (m : ConvObj.Mesh) (ha : Fkp.alpha (meshOf mc m).cat = none)
    (hr : (mc.cats m.source).randoms.flatten ≠ []) : finite w mc m = false := by
  have hc : (meshOf mc m).cat.randoms.csize > 0 := by
    show (Fkp.Cat.mk ((mc.cats m.source).randoms.map (·.map (rowOf m))) true true).csize > 0
    rw [csize_map]; exact List.length_pos_iff.mpr hr
  unfold finite
  rw [List.all_eq_false]
  refine ⟨⟨0, hn⟩, List.mem_finRange _, ?_⟩
  unfold Fkp.toRealField
  simp [hc, ha]

/-- C137, negation: if the weights of the randoms sum to 0 there is no error: all multipoles are NaN in all bins, while the table has its wavenumbers and
numbers of modes. -/
theorem weightless_randoms (w : World n K) (hn : 0 < n) (mc : Machine n) (h : ConvObj.Heap) (g : ConvObj.Args) (h' : ConvObj.Heap) (o : ConvObj.Obj)
    (hk : call w mc h g = (h', .ok o)) (ha : o.attrs.alpha = none) (hr : ∀ i, (mc.cats i).randoms.flatten ≠ []) (ed : List ℚ) (he : o.edges = some ed) :
    ∃ k modes : List Binned.Val, o.poles.data = [⟨"k", false, k⟩] ++
      (g.poles.list.insertionSort (· ≤ ·)).flatMap (fun ell => cols ell (List.replicate (ed.length - 1) (none, none))) ++ [⟨"modes", true, modes⟩] := by
  unfold call at hk
  obtain ⟨r1, r2, m1, m2, norm, ed', cs, q1, q2, q3, q4, q5, q6, q7, q8, q9, q10, q11, q12, q13, q14, q15, q16, q17, q18, q19, q20, q21, q22, q23, q24, q25, q26,
    q27, q28, q29, q30⟩ := ConvObj.result_spec _ (consistent w mc) _ _ _ _ hk
  rw [he] at q26
  cases q26
  have hf : finite w mc m1 = false := not_finite w hn mc m1 (by rw [← ha, q16]; rfl) (hr _)
  refine ⟨((envOf w mc).conv ed m1 m2 m1.nmesh (ConvObj.compensation m1) (ConvObj.compensation m2) norm).projK.map FftObj.val,
    ((envOf w mc).conv ed m1 m2 m1.nmesh (ConvObj.compensation m1) (ConvObj.compensation m2) norm).projN.map FftObj.val, ?_⟩
  rw [q30]
  dsimp only
  congr 2
  apply List.flatMap_congr
  intro ell _
  have hp : ∀ f, ((envOf w mc).conv ed m1 m2 m1.nmesh (ConvObj.compensation m1) (ConvObj.compensation m2) norm).projP f =
      List.replicate (ed.length - 1) (none, none) := by
    intro f
    show (List.range (ed.length - 1)).map _ = _
    simp only [hf, Bool.false_and, Bool.false_eq_true, if_false]
    rw [List.map_const', List.length_range]
  rw [hp]
  rfl

end

/-- The same catalog, the randoms with weights that sum to 0. -/
def surveyZ : Survey := { surveyA with randoms := surveyA.randoms.map (·.map fun r => { r with num := fun c => if c = "Weight" then 0 else r.num c }) }

theorem weightless_case : (call world ⟨fun _ => surveyZ, 100, [[[0, 1]]]⟩ [] gA).2.toOption.map view =
    some ([("k", [.fin 0, .fin 1]), ("power_0.real", [.nan, .nan]), ("power_0.imag", [.nan, .nan]), ("power_1.real", [.nan, .nan]),
      ("power_1.imag", [.nan, .nan]), ("power_2.real", [.nan, .nan]), ("power_2.imag", [.nan, .nan]), ("modes", [.fin 1, .fin 1])],
      some [0, 1, 2], none, none, none, [3, 1, 1], [0, 0, 0]) := by
  decide +kernel

/-- If the weights of the data sum to 0, too, `alpha` is NaN, and there is an error. -/
theorem weightless_both : failure (call world ⟨fun _ => { surveyZ with data := surveyZ.randoms }, 100, [[[0, 1]]]⟩ [] gA) = some .valueError := by
  decide +kernel

/-- Without randoms the power is that of the data alone, and the norm is 1: `Fits` holds for every number. -/
theorem no_randoms_case : (call world ⟨fun _ => { surveyA with data := surveyA.randoms, randoms := [] }, 100, [[[0, 1]]]⟩ [] gA).2.toOption.map view =
    some ([("k", [.fin 0, .fin 1]), ("power_0.real", [.fin 16, .fin 0]), ("power_0.imag", [.fin 0, .fin 0]), ("power_1.real", [.fin 48, .fin 0]),
      ("power_1.imag", [.fin 0, .fin 0]), ("power_2.real", [.fin 80, .fin 0]), ("power_2.imag", [.fin 0, .fin 0]), ("modes", [.fin 1, .fin 1])],
      some [0, 1, 2], none, some 0, none, [3, 1, 1], [0, 0, 0]) := by
  decide +kernel

/-! ## Copies of the randoms, and a translation -/

/-- Two copies of the randoms. -/
def machD : Machine 2 := ⟨fun _ => { surveyA with randoms := surveyA.randoms ++ surveyA.randoms }, 100, [[[0, 1]]]⟩

theorem copies_case : Copies machA machD 2 := by
  refine ⟨fun _ => List.Perm.refl _, fun _ => ?_, rfl⟩
  show (surveyA.randoms ++ surveyA.randoms).flatten.Perm (List.replicate 2 surveyA.randoms.flatten).flatten
  simp [List.replicate]

def meshA : ConvObj.Mesh := { source := 0, comm := 0, nmesh := [2, 1, 1], pmBox := [3, 1, 1], boxSize := [3, 1, 1], boxCenter := [0, 0, 0], boxPad := [0, 0, 0] }

def gM : ConvObj.Args := { first := .mesh 0, poles := .one 0, dk := some 1, kmax := some 3 }

/-- C137: the hypotheses of `randoms_replicated` hold. The shot noise is lower: `alpha` is. -/
theorem replicated_case : (call world machA [meshA] gM).2.toOption.map view = some ([("k", [.fin 0, .fin 1]), ("power_0.real", [.fin 0, .fin 16]),
      ("power_0.imag", [.fin 0, .fin 0]), ("modes", [.fin 1, .fin 1])], some [0, 1, 2], some (1 / 2), some 1, some (3 / 4), [3, 1, 1], [0, 0, 0]) ∧
    (call world machD [meshA] gM).2.toOption.map view = some ([("k", [.fin 0, .fin 1]), ("power_0.real", [.fin 0, .fin 16]),
      ("power_0.imag", [.fin 0, .fin 0]), ("modes", [.fin 1, .fin 1])], some [0, 1, 2], some (1 / 4), some 1, some (5 / 8), [3, 1, 1], [0, 0, 0]) := by
  decide +kernel

/-- C137: the hypotheses of `monopole_moved` hold. -/
theorem moved_case : (call world (moveCats [-9, 0, 1] machA) ([meshA].map (moveMesh [-9, 0, 1])) gM).2.toOption.map view =
    some ([("k", [.fin 0, .fin 1]), ("power_0.real", [.fin 0, .fin 16]), ("power_0.imag", [.fin 0, .fin 0]), ("modes", [.fin 1, .fin 1])],
      some [0, 1, 2], some (1 / 2), some 1, some (3 / 4), [3, 1, 1], [-9, 0, 1]) := by
  decide +kernel

/-- The dipole does change: the objects are on the other side of the observer. -/
theorem dipole_moved :
    ((call world machA [meshA] { gM with poles := .one 1 }).2.toOption.map fun o => o.poles.data.map fun c => (c.name, c.vals)) =
      some [("k", [.fin 0, .fin 1]), ("power_1.real", [.fin 0, .fin 48]), ("power_1.imag", [.fin 0, .fin 0]), ("modes", [.fin 1, .fin 1])] ∧
    ((call world (moveCats [-9, 0, 1] machA) ([meshA].map (moveMesh [-9, 0, 1])) { gM with poles := .one 1 }).2.toOption.map fun o =>
        o.poles.data.map fun c => (c.name, c.vals)) =
      some [("k", [.fin 0, .fin 1]), ("power_1.real", [.fin 0, .fin (-48)]), ("power_1.imag", [.fin 0, .fin 0]), ("modes", [.fin 1, .fin 1])] := by
  decide +kernel

end NBK.Survey
