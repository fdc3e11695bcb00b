import Verif.Estim.Model
import Mathlib.Tactic.FieldSimp
import Mathlib.Tactic.Ring
import Mathlib.Tactic.Linarith
import Mathlib.Tactic.Positivity

set_option linter.unusedSimpArgs false

/-! C59 (Landy-Szalay), C60 (natural estimator), C61 (filling factors), C62 (projected correlation, multipoles). -/
namespace NBK.Estim

/-! ### C59 -/

theorem ls_get (count : Nat → Option Nat → PC) (d1 : Nat) (d2 : Option Nat) (r1 : Nat) (r2 : Option Nat)
    (given : Option PC) (b : Nat) (DD DR RD RR : Nat × ℚ)
    (hDD : (landySzalay count d1 d2 r1 r2 given).d1d2.rows[b]? = some DD)
    (hDR : (landySzalay count d1 d2 r1 r2 given).d1r2.rows[b]? = some DR)
    (hRD : (landySzalay count d1 d2 r1 r2 given).d2r1.rows[b]? = some RD)
    (hRR : (landySzalay count d1 d2 r1 r2 given).r1r2.rows[b]? = some RR) :
    (landySzalay count d1 d2 r1 r2 given).cf[b]? = some (lsBin (landySzalay count d1 d2 r1 r2 given).d1d2.total
      (landySzalay count d1 d2 r1 r2 given).d1r2.total (landySzalay count d1 d2 r1 r2 given).d2r1.total
      (landySzalay count d1 d2 r1 r2 given).r1r2.total DD.2 DR.2 RD.2 RR) := by
  have hzip : ∀ {α β : Type} (l : List α) (m : List β) (x : α) (y : β), l[b]? = some x → m[b]? = some y →
      (l.zip m)[b]? = some (x, y) := by
    intro α β l m x y hx hy
    rw [List.getElem?_zip_eq_some]
    exact ⟨hx, hy⟩
  have h := hzip _ _ _ _ hDD (hzip _ _ _ _ hDR (hzip _ _ _ _ hRD hRR))
  show (List.map _ _)[b]? = _
  rw [List.getElem?_map]
  exact congrArg _ h

/-- C59: in a bin with random pairs, the correlation function is the Landy-Szalay combination of the four counts, each
divided by its own total number of weighted pairs. -/
theorem ls_formula (count : Nat → Option Nat → PC) (d1 : Nat) (d2 : Option Nat) (r1 : Nat) (r2 : Option Nat)
    (given : Option PC) (L : LS) (hL : landySzalay count d1 d2 r1 r2 given = L) (b : Nat) (DD DR RD RR : Nat × ℚ)
    (hDD : L.d1d2.rows[b]? = some DD) (hDR : L.d1r2.rows[b]? = some DR) (hRD : L.d2r1.rows[b]? = some RD)
    (hRR : L.r1r2.rows[b]? = some RR) (h1 : L.d1d2.total ≠ 0) (h2 : L.d1r2.total ≠ 0) (h3 : L.d2r1.total ≠ 0)
    (h4 : L.r1r2.total ≠ 0) (hpos : 0 < RR.1) (hw : RR.2 ≠ 0) :
    L.cf[b]? = some (some ((DD.2 / L.d1d2.total - DR.2 / L.d1r2.total - RD.2 / L.d2r1.total + RR.2 / L.r1r2.total) /
      (RR.2 / L.r1r2.total))) := by
  subst hL
  rw [ls_get count d1 d2 r1 r2 given b DD DR RD RR hDD hDR hRD hRR]
  generalize (landySzalay count d1 d2 r1 r2 given).d1d2.total = t1 at *
  generalize (landySzalay count d1 d2 r1 r2 given).d1r2.total = t2 at *
  generalize (landySzalay count d1 d2 r1 r2 given).d2r1.total = t3 at *
  generalize (landySzalay count d1 d2 r1 r2 given).r1r2.total = t4 at *
  unfold lsBin
  rw [if_pos hpos]
  simp only [fdiv, if_neg h1, if_neg h2, if_neg h3, if_neg hw, Option.bind_eq_bind, Option.bind_some, pure]
  congr 2
  field_simp

/-- C59: a bin without random pairs is NaN. -/
theorem ls_nan (count : Nat → Option Nat → PC) (d1 : Nat) (d2 : Option Nat) (r1 : Nat) (r2 : Option Nat)
    (given : Option PC) (L : LS) (hL : landySzalay count d1 d2 r1 r2 given = L) (b : Nat) (DD DR RD RR : Nat × ℚ)
    (hDD : L.d1d2.rows[b]? = some DD) (hDR : L.d1r2.rows[b]? = some DR) (hRD : L.d2r1.rows[b]? = some RD)
    (hRR : L.r1r2.rows[b]? = some RR) (hpos : RR.1 = 0) : L.cf[b]? = some none := by
  subst hL
  rw [ls_get count d1 d2 r1 r2 given b DD DR RD RR hDD hDR hRD hRR]
  unfold lsBin
  rw [if_neg (by omega)]

/-- The catalogs hold the same objects, however distributed. -/
def SameCats {A : Type} (cats cats' : Nat → Cat A) : Prop := ∀ i, (cats i).flatten.Perm (cats' i).flatten

theorem counter_indep {A : Type} (n : Nat) (bin : A → A → Option Nat) (cats cats' : Nat → Cat A)
    (h : SameCats cats cats') : counter n bin cats = counter n bin cats' := by
  funext i second
  have hw : ∀ i, ((cats i).map fun l => l.map Prod.snd).flatten.Perm ((cats' i).map fun l => l.map Prod.snd).flatten := by
    intro i
    rw [← List.map_flatten, ← List.map_flatten]
    exact (h i).map _
  unfold counter
  rw [PC.mk.injEq]
  constructor
  · cases second with
    | none => exact (Pairs.total_indep _ _ [] [] (hw i) .nil).1
    | some j =>
      simp only [Option.elim_some]
      split
      · exact (Pairs.total_indep _ _ [] [] (hw i) .nil).2.1
      · exact (Pairs.total_indep _ _ _ _ (hw i) (hw j)).2.2
  · apply List.map_congr_left
    intro b _
    unfold binCount
    congr 1
    · rw [((h i).map _).sum_eq]
      congr 1
      apply List.map_congr_left
      intro a _
      exact (h _).countP_eq _
    · rw [((h i).map _).sum_eq]
      congr 1
      apply List.map_congr_left
      intro a _
      exact ((h _).map _).sum_eq

/-- C59: the estimator does not depend on how the catalogs are distributed over processes. -/
theorem ls_indep {A : Type} (n : Nat) (bin : A → A → Option Nat) (cats cats' : Nat → Cat A) (h : SameCats cats cats')
    (d1 : Nat) (d2 : Option Nat) (r1 : Nat) (r2 : Option Nat) (given : Option PC) :
    landySzalay (counter n bin cats) d1 d2 r1 r2 given = landySzalay (counter n bin cats') d1 d2 r1 r2 given := by
  rw [counter_indep n bin cats cats' h]

/-- All weights of catalog `i` multiplied by `c i`. -/
def rescale {A : Type} (c : Nat → ℚ) (cats : Nat → Cat A) : Nat → Cat A :=
  fun i => (cats i).map fun l => l.map fun p => (p.1, c i * p.2)

theorem sum_scale {α : Type} (c : ℚ) (f : α → ℚ) (l : List α) : (l.map fun x => c * f x).sum = c * (l.map f).sum := by
  induction l with
  | nil => simp
  | cons a l ih => rw [List.map_cons, List.sum_cons, List.map_cons, List.sum_cons, ih]; ring

theorem rescale_flatten {A : Type} (c : Nat → ℚ) (cats : Nat → Cat A) (i : Nat) :
    (rescale c cats i).flatten = (cats i).flatten.map fun p => (p.1, c i * p.2) := by
  unfold rescale; rw [List.map_flatten]

theorem allsum_scale (c : ℚ) {A : Type} (D : Cat A) :
    Pairs.allsum ((D.map fun l => l.map fun p => (p.1, c * p.2)).map fun l => (l.map Prod.snd).sum) =
      c * Pairs.allsum (D.map fun l => (l.map Prod.snd).sum) := by
  unfold Pairs.allsum
  rw [List.map_map, ← sum_scale]
  congr 1
  apply List.map_congr_left
  intro l _
  simp only [Function.comp_def, List.map_map]
  exact sum_scale c Prod.snd l

theorem allsum_sq_scale (c : ℚ) {A : Type} (D : Cat A) :
    Pairs.allsum ((D.map fun l => l.map fun p => (p.1, c * p.2)).map fun l => ((l.map Prod.snd).map fun x => x ^ 2).sum) =
      c ^ 2 * Pairs.allsum (D.map fun l => ((l.map Prod.snd).map fun x => x ^ 2).sum) := by
  unfold Pairs.allsum
  rw [List.map_map, ← sum_scale]
  congr 1
  apply List.map_congr_left
  intro l _
  simp only [Function.comp_def, List.map_map]
  rw [← sum_scale]
  congr 1
  apply List.map_congr_left
  intro x _
  ring

/-- Counts and totals of rescaled catalogs. -/
theorem counter_rescale {A : Type} (n : Nat) (bin : A → A → Option Nat) (cats : Nat → Cat A) (c : Nat → ℚ)
    (i : Nat) (second : Option Nat) :
    (counter n bin (rescale c cats) i second).total = c i * c (second.getD i) * (counter n bin cats i second).total ∧
    (counter n bin (rescale c cats) i second).rows =
      (counter n bin cats i second).rows.map fun r => (r.1, c i * c (second.getD i) * r.2) := by
  have hauto : Pairs.totalWnpairs ((rescale c cats i).map fun l => l.map Prod.snd) .none =
      c i * c i * Pairs.totalWnpairs ((cats i).map fun l => l.map Prod.snd) .none := by
    show 1 / 2 * (Pairs.allsum (List.map _ (List.map _ (rescale c cats i))) ^ 2 -
      Pairs.allsum (List.map _ (List.map _ (rescale c cats i)))) = c i * c i * (1 / 2 * (Pairs.allsum (List.map _
        (List.map _ (cats i))) ^ 2 - Pairs.allsum (List.map _ (List.map _ (cats i)))))
    simp only [List.map_map, Function.comp_def, rescale]
    have h1 := allsum_scale (c i) (cats i)
    have h2 := allsum_sq_scale (c i) (cats i)
    simp only [List.map_map, Function.comp_def] at h1 h2
    rw [h1, h2]
    ring
  have hcross : ∀ j, Pairs.totalWnpairs ((rescale c cats i).map fun l => l.map Prod.snd)
        (.other ((rescale c cats j).map fun l => l.map Prod.snd)) =
      c i * c j * Pairs.totalWnpairs ((cats i).map fun l => l.map Prod.snd)
        (.other ((cats j).map fun l => l.map Prod.snd)) := by
    intro j
    show 1 / 2 * Pairs.allsum (List.map _ (List.map _ (rescale c cats i))) *
      Pairs.allsum (List.map _ (List.map _ (rescale c cats j))) = c i * c j * (1 / 2 * Pairs.allsum (List.map _
        (List.map _ (cats i))) * Pairs.allsum (List.map _ (List.map _ (cats j))))
    simp only [List.map_map, Function.comp_def, rescale]
    have h1 := allsum_scale (c i) (cats i)
    have h2 := allsum_scale (c j) (cats j)
    simp only [List.map_map, Function.comp_def] at h1 h2
    rw [h1, h2]
    ring
  constructor
  · cases second with
    | none => exact hauto
    | some j =>
      unfold counter
      simp only [Option.elim_some, Option.getD_some]
      split
      · rename_i h; subst h; exact hauto
      · exact hcross j
  · unfold counter
    dsimp only
    rw [List.map_map]
    apply List.map_congr_left
    intro b _
    simp only [Function.comp_def, binCount, rescale_flatten, List.map_map, List.countP_map]
    congr 1
    rw [← sum_scale]
    congr 1
    apply List.map_congr_left
    intro a _
    rw [← sum_scale]
    congr 1
    apply List.map_congr_left
    intro d _
    split <;> ring

/-- The formula does not notice a common factor of counts and total. -/
theorem lsBin_scale (k1 k2 k3 k4 t1 t2 t3 t4 DD DR RD : ℚ) (RR : Nat × ℚ) (h1 : k1 ≠ 0) (h2 : k2 ≠ 0) (h3 : k3 ≠ 0)
    (h4 : k4 ≠ 0) :
    lsBin (k1 * t1) (k2 * t2) (k3 * t3) (k4 * t4) (k1 * DD) (k2 * DR) (k3 * RD) (RR.1, k4 * RR.2) =
      lsBin t1 t2 t3 t4 DD DR RD RR := by
  unfold lsBin
  simp only []
  split
  · by_cases z1 : t1 = 0
    · simp [fdiv, z1]
    by_cases z2 : t2 = 0
    · simp [fdiv, z2, h1, z1]
    by_cases z3 : t3 = 0
    · simp [fdiv, z3, h1, z1, h2, z2]
    by_cases z4 : RR.2 = 0
    · simp [fdiv, z4, h1, z1, h2, z2, h3, z3]
    simp only [fdiv, mul_eq_zero, h1, h2, h3, h4, z1, z2, z3, z4, or_self, if_false, Option.bind_eq_bind,
      Option.bind_some, pure]
    congr 2
    field_simp
  · rfl

/-- C59: multiplying all weights of any of the catalogs by a non-zero constant does not change the correlation
function. -/
theorem ls_scale {A : Type} (n : Nat) (bin : A → A → Option Nat) (cats : Nat → Cat A) (c : Nat → ℚ)
    (hc : ∀ i, c i ≠ 0) (d1 : Nat) (d2 : Option Nat) (r1 : Nat) (r2 : Option Nat) :
    (landySzalay (counter n bin (rescale c cats)) d1 d2 r1 r2 none).cf =
      (landySzalay (counter n bin cats) d1 d2 r1 r2 none).cf := by
  have key : ∀ (i1 i2 i3 i4 : Nat) (s1 s2 s3 s4 : Option Nat),
      (((counter n bin (rescale c cats) i1 s1).rows.zip ((counter n bin (rescale c cats) i2 s2).rows.zip
        ((counter n bin (rescale c cats) i3 s3).rows.zip (counter n bin (rescale c cats) i4 s4).rows))).map fun p =>
        lsBin (counter n bin (rescale c cats) i1 s1).total (counter n bin (rescale c cats) i2 s2).total
          (counter n bin (rescale c cats) i3 s3).total (counter n bin (rescale c cats) i4 s4).total
          p.1.2 p.2.1.2 p.2.2.1.2 p.2.2.2) =
      (((counter n bin cats i1 s1).rows.zip ((counter n bin cats i2 s2).rows.zip
        ((counter n bin cats i3 s3).rows.zip (counter n bin cats i4 s4).rows))).map fun p =>
        lsBin (counter n bin cats i1 s1).total (counter n bin cats i2 s2).total
          (counter n bin cats i3 s3).total (counter n bin cats i4 s4).total
          p.1.2 p.2.1.2 p.2.2.1.2 p.2.2.2) := by
    intro i1 i2 i3 i4 s1 s2 s3 s4
    rw [(counter_rescale n bin cats c i1 s1).1, (counter_rescale n bin cats c i1 s1).2,
      (counter_rescale n bin cats c i2 s2).1, (counter_rescale n bin cats c i2 s2).2,
      (counter_rescale n bin cats c i3 s3).1, (counter_rescale n bin cats c i3 s3).2,
      (counter_rescale n bin cats c i4 s4).1, (counter_rescale n bin cats c i4 s4).2]
    rw [List.zip_map, List.zip_map, List.zip_map, List.map_map]
    apply List.map_congr_left
    intro p _
    exact lsBin_scale _ _ _ _ _ _ _ _ _ _ _ _ (mul_ne_zero (hc _) (hc _)) (mul_ne_zero (hc _) (hc _))
      (mul_ne_zero (hc _) (hc _)) (mul_ne_zero (hc _) (hc _))
  cases d2 with
  | none => exact key d1 d1 d1 r1 none (some (r2.getD r1)) (some (r2.getD r1)) (some (r2.getD r1))
  | some d => exact key d1 d1 d r1 (some d) (some (r2.getD r1)) (some r1) (some (r2.getD r1))

/-- C59: the four counts that are returned are the documented ones. Missing: `D2R1` when `data2` is not given but a
second randoms catalog is (`ls_wrong_randoms`). -/
theorem ls_counts_partial (count : Nat → Option Nat → PC) (d1 : Nat) (d2 : Option Nat) (r1 : Nat) (r2 : Option Nat)
    (h : d2 ≠ none ∨ r2 = none ∨ r2 = some r1) :
    let L := landySzalay count d1 d2 r1 r2 none
    L.d1d2 = count d1 d2 ∧ L.d1r2 = count d1 (some (r2.getD r1)) ∧
      L.d2r1 = count (d2.getD d1) (some r1) ∧ L.r1r2 = count r1 (some (r2.getD r1)) := by
  refine ⟨rfl, rfl, ?_, rfl⟩
  cases d2 with
  | some d => rfl
  | none =>
    rcases h with h | rfl | rfl
    · exact absurd rfl h
    · rfl
    · rfl

/-- C59: a given `R1R2` is used for the randoms; the other counts do not change. -/
theorem ls_given (count : Nat → Option Nat → PC) (d1 : Nat) (d2 : Option Nat) (r1 : Nat) (r2 : Option Nat) (P : PC) :
    let L := landySzalay count d1 d2 r1 r2 (some P)
    let L0 := landySzalay count d1 d2 r1 r2 none
    L.r1r2 = P ∧ L.d1d2 = L0.d1d2 ∧ L.d1r2 = L0.d1r2 ∧ L.d2r1 = L0.d2r1 ∧
      (P = L0.r1r2 → L.cf = L0.cf) := by
  refine ⟨rfl, rfl, rfl, rfl, ?_⟩
  intro h; rw [h]; rfl

/-- With `data2=None` and two different randoms, `D2R1` is the count of the data with the *second* randoms again, and
the estimate is not the one of the formula: data and randoms in one bin each. -/
theorem ls_wrong_randoms :
    let cats : Nat → Cat Nat := fun i => [[[(0, 1), (1, 1)], [(0, 1), (5, 1), (1, 1)], [(6, 1), (1, 1)]].getD i []]
    let count := counter 1 (fun a b => if a = b then none else if a < 5 ∧ b < 5 then some 0 else none) cats
    let L := landySzalay count 0 none 1 (some 2) none
    L.d2r1 ≠ count 0 (some 1) ∧ L.d2r1 = count 0 (some 2) ∧
      L.cf = [some 4] ∧ lsBin (count 0 none).total (count 0 (some 2)).total (count 0 (some 1)).total
        (count 1 (some 2)).total 2 1 2 (1, 1) = some (7 / 2) := by
  decide +kernel

/-- Non-triviality of `ls_formula`, `ls_nan`: two bins, one without random pairs. -/
example :
    let cats : Nat → Cat Nat := fun i => [[[(0, 1), (1, 2)], [(2, 1)]], [[(0, 1)], [(3, 1), (1, 1)]]].getD i []
    let count := counter 2 (fun a b => if a = b then none else if a < 2 ∧ b < 2 then some 0 else
      if a = 2 ∨ b = 2 then some 1 else none) cats
    (landySzalay count 0 none 1 none none).cf = [some ((4 / 5 - 3 / 6 - 3 / 6 + 2 / 3) / (2 / 3)), none] := by
  decide +kernel

/-! ### C60 -/

/-- C60: two catalogs whose weighted pairs fill every bin in proportion to its volume have a vanishing natural
estimate. (All cross pairs add up to twice `total_wnpairs`, `Pairs.cross_sum`.) -/
theorem natural_cross (ff : List ℚ) (N1 N2 : ℚ) (dd : PC) (h1 : N1 ≠ 0) (h2 : N2 ≠ 0) (ht : dd.total ≠ 0)
    (b : Nat) (f : ℚ) (hf : ff[b]? = some f) (hf0 : f ≠ 0) (k : Nat) (hd : dd.rows[b]? = some (k, 2 * dd.total * f)) :
    (natural ff N1 (some N2) dd)[b]? = some (some 0) := by
  show (List.map _ _)[b]? = _
  have hz : (dd.rows.zip (ff.map fun f => N1 * N2 * f))[b]? = some ((k, 2 * dd.total * f), N1 * N2 * f) := by
    rw [List.getElem?_zip_eq_some]
    exact ⟨hd, by rw [List.getElem?_map, hf]; rfl⟩
  have e : (analytic ff N1 (some N2)).2 = ff.map fun f => N1 * N2 * f := rfl
  have e1 : (analytic ff N1 (some N2)).1 = N1 * N2 * (1 / 2) := rfl
  rw [List.getElem?_map, e, hz, e1]
  simp only [Option.map_some, fdiv, if_neg ht, Option.bind_eq_bind, Option.bind_some,
    if_neg (mul_ne_zero (mul_ne_zero h1 h2) hf0), pure]
  congr 2
  field_simp
  ring

/-- C60, the auto-correlation: the estimate is `DD / (2 total f) * (1 - 1/N) - 1`, i.e. the true one times
`1 - 1/N`, minus `1/N`. Missing: the factor; the expected random pairs are `N**2 * f`, although the total used for the
normalisation is that of `N (N - 1)` ordered pairs. -/
theorem natural_auto_partial (ff : List ℚ) (N : ℚ) (dd : PC) (h1 : N ≠ 0) (ht : dd.total ≠ 0)
    (b : Nat) (f : ℚ) (hf : ff[b]? = some f) (hf0 : f ≠ 0) (k : Nat) (w : ℚ) (hd : dd.rows[b]? = some (k, w)) :
    (natural ff N none dd)[b]? = some (some (w / (2 * dd.total * f) * (1 - 1 / N) - 1)) := by
  show (List.map _ _)[b]? = _
  have hz : (dd.rows.zip (ff.map fun f => N ^ 2 * f))[b]? = some ((k, w), N ^ 2 * f) := by
    rw [List.getElem?_zip_eq_some]
    exact ⟨hd, by rw [List.getElem?_map, hf]; rfl⟩
  have e : (analytic ff N none).2 = ff.map fun f => N ^ 2 * f := rfl
  have e1 : (analytic ff N none).1 = N * (N - 1) * (1 / 2) := rfl
  rw [List.getElem?_map, e, hz, e1]
  simp only [Option.map_some, fdiv, if_neg ht, Option.bind_eq_bind, Option.bind_some,
    if_neg (mul_ne_zero (pow_ne_zero 2 h1) hf0), pure]
  congr 2
  field_simp

/-- So a catalog whose pairs fill every bin in proportion to its volume has the estimate `-1/N`, not zero. -/
theorem natural_bias (ff : List ℚ) (N : ℚ) (dd : PC) (h1 : N ≠ 0) (ht : dd.total ≠ 0)
    (b : Nat) (f : ℚ) (hf : ff[b]? = some f) (hf0 : f ≠ 0) (k : Nat) (hd : dd.rows[b]? = some (k, 2 * dd.total * f)) :
    (natural ff N none dd)[b]? = some (some (-1 / N)) ∧ -1 / N ≠ 0 := by
  refine ⟨?_, by simpa using h1⟩
  rw [natural_auto_partial ff N dd h1 ht b f hf hf0 k _ hd]
  congr 2
  field_simp
  ring

/-- The hypotheses hold: two objects with unit weights (one unordered pair), one bin holding the whole volume. -/
example : natural [1] 2 none ⟨1, [(2, 2)]⟩ = [some (-1 / 2)] ∧ natural [1] 2 (some 3) ⟨3, [(6, 6)]⟩ = [some 0] := by
  decide +kernel

/-! ### C61 -/

theorem diff_getElem? (l : List ℚ) (i : Nat) (a b : ℚ) (h1 : l[i]? = some a) (h2 : l[i + 1]? = some b) :
    (diff l)[i]? = some (b - a) := by
  unfold diff
  rw [List.getElem?_zipWith, h1]
  have : l.tail[i]? = some b := by rw [List.getElem?_tail, h2]
  rw [this]

theorem diff_map_mul (c : ℚ) (l : List ℚ) : diff (l.map fun x => c * x) = (diff l).map fun x => c * x := by
  unfold diff
  rw [← List.map_tail, List.zipWith_map, List.map_zipWith]
  congr 1
  funext a b
  ring

theorem diff_sum (a : ℚ) (l : List ℚ) : (diff (a :: l)).sum = (a :: l).getLast (by simp) - a := by
  unfold diff
  induction l generalizing a with
  | nil => simp
  | cons b l ih =>
    have h := ih b
    simp only [List.tail_cons, List.zipWith_cons_cons, List.sum_cons] at h ⊢
    rw [h, List.getLast_cons (List.cons_ne_nil b l)]
    ring

/-- C61, '1d': the filling factor of bin `i` is the volume of the spherical shell over that of the box. -/
theorem ff1d_shell (π vol : ℚ) (r : List ℚ) (i : Nat) (a b : ℚ) (h1 : r[i]? = some a) (h2 : r[i + 1]? = some b) :
    (ff1d π vol r)[i]? = some (4 / 3 * π * (b ^ 3 - a ^ 3) / vol) := by
  unfold ff1d
  rw [List.getElem?_map, diff_getElem? _ i (4 / 3 * π * a ^ 3) (4 / 3 * π * b ^ 3) (by simp [h1]) (by simp [h2])]
  simp only [Option.map_some]
  congr 1
  ring

theorem outerDiff_get (vol : ℚ) (f g : List ℚ) (i : Nat) (a b : ℚ) (h1 : f[i]? = some a) (h2 : f[i + 1]? = some b) :
    (outerDiff vol f g)[i]? = some ((diff g).map fun d => (b - a) * d / vol) := by
  unfold outerDiff
  dsimp only
  rw [List.getElem?_map, List.getElem?_zipWith, List.getElem?_map, h1, List.getElem?_tail, List.getElem?_map, h2]
  simp only [Option.map_some]
  congr 1
  have : List.zipWith (fun a b => b - a) (g.map fun x => a * x) (g.map fun x => b * x) = g.map fun x => (b - a) * x := by
    rw [List.zipWith_map]
    apply List.ext_getElem
    · simp
    · intro k _ _
      simp only [List.getElem_zipWith, List.getElem_map]
      ring
  rw [this, diff_map_mul, List.map_map]
  rfl

theorem sum_mul_div (c vol : ℚ) (l : List ℚ) : (l.map fun d => c * d / vol).sum = c * l.sum / vol := by
  induction l with
  | nil => simp
  | cons a l ih => rw [List.map_cons, List.sum_cons, List.sum_cons, ih]; ring

/-- C61, '2d': the filling factors of the `mu` bins, from 0 to 1, of a separation bin add up to its '1d' factor. -/
theorem ff2d_sum (π vol : ℚ) (r mu : List ℚ) (hmu : mu ≠ []) (h0 : mu.head hmu = 0) (h1 : mu.getLast hmu = 1)
    (i : Nat) (a b : ℚ) (ha : r[i]? = some a) (hb : r[i + 1]? = some b) :
    ∃ row, (ff2d π vol r mu)[i]? = some row ∧ (ff1d π vol r)[i]? = some row.sum := by
  refine ⟨_, outerDiff_get vol _ mu i (2 / 3 * π * a ^ 3 * 2) (2 / 3 * π * b ^ 3 * 2) (by simp [ha]) (by simp [hb]), ?_⟩
  rw [ff1d_shell π vol r i a b ha hb, sum_mul_div]
  obtain ⟨m, ms, rfl⟩ := List.exists_cons_of_ne_nil hmu
  rw [diff_sum, h1]
  simp only [List.head_cons] at h0
  rw [h0]
  congr 1
  ring

/-- C61, 'projected': the factors of the bins from 0 to `pimax` add up to a hollow cylinder of height `2 pimax`. -/
theorem ffProj_sum (π vol pimax : ℚ) (r pi : List ℚ) (hpi : pi ≠ []) (h0 : pi.head hpi = 0) (h1 : pi.getLast hpi = pimax)
    (i : Nat) (a b : ℚ) (ha : r[i]? = some a) (hb : r[i + 1]? = some b) :
    ∃ row, (ffProj π vol r pi)[i]? = some row ∧ row.sum = π * (b ^ 2 - a ^ 2) * (2 * pimax) / vol := by
  refine ⟨_, outerDiff_get vol _ _ i (π * a ^ 2) (π * b ^ 2) (by simp [ha]) (by simp [hb]), ?_⟩
  rw [sum_mul_div]
  obtain ⟨m, ms, rfl⟩ := List.exists_cons_of_ne_nil hpi
  rw [diff_map_mul]
  have := sum_scale 2 (fun x : ℚ => x) (diff (m :: ms))
  rw [List.map_id'] at this
  rw [this, diff_sum, h1]
  simp only [List.head_cons] at h0
  rw [h0]
  ring

/-- C61 fails for 'angular': the area of a cap of opening angle `θ` is `2π(1 - cos θ)`, and the code's value exceeds it
for every `θ` up to 60 degrees (beyond that its square root is that of a negative number, NaN): it takes the chord for
the radius of the base circle. -/
theorem capArea_wrong (θ : ℝ) (h0 : 0 < θ) (h1 : θ ≤ Real.pi / 3) : 2 * Real.pi * (1 - Real.cos θ) < capArea θ := by
  have hpi := Real.pi_pos
  have hs : 0 < Real.sin (1 / 2 * θ) := Real.sin_pos_of_pos_of_lt_pi (by linarith) (by linarith)
  have hs2 : Real.sin (1 / 2 * θ) ≤ 1 / 2 := by
    have h6 := Real.sin_le_sin_of_le_of_le_pi_div_two (x := 1 / 2 * θ) (y := Real.pi / 6) (by linarith) (by linarith)
      (by linarith)
    rwa [Real.sin_pi_div_six] at h6
  have hcos : Real.cos θ = 1 - 2 * Real.sin (1 / 2 * θ) ^ 2 := by
    have h2 : θ = 2 * (1 / 2 * θ) := by ring
    conv_lhs => rw [h2]
    rw [Real.cos_two_mul, Real.cos_sq']
    ring
  have hsq : Real.sqrt (1 - (2 * Real.sin (1 / 2 * θ)) ^ 2) < 1 := by
    rw [Real.sqrt_lt' one_pos]
    nlinarith
  unfold capArea
  dsimp only
  rw [hcos]
  have hp : 0 < (1 - Real.sqrt (1 - (2 * Real.sin (1 / 2 * θ)) ^ 2)) ^ 2 := by
    apply pow_pos; linarith
  nlinarith

example : (ff1d 3 8 [1, 2]) = [4 * 7 / 8] ∧ ff2d 3 8 [1, 2] [0, 1/4, 1] = [[7 / 8, 3 * 7 / 8]] ∧
    ffProj 3 8 [1, 2] [0, 1, 3] = [[3 * 3 * 2 / 8, 3 * 3 * 4 / 8]] := by decide +kernel

/-! ### C62 -/

theorem fold_some (l : List ℚ) (x : ℚ) :
    (l.map fun v => (some v : Val)).foldl (fun a b => a.bind fun x => b.map fun y => x + y) (some x) =
      some (x + l.sum) := by
  induction l generalizing x with
  | nil => simp
  | cons a l ih =>
    rw [List.map_cons, List.foldl_cons, List.sum_cons, ← add_assoc, ← ih]
    rfl

theorem fold_none (l : List Val) :
    l.foldl (fun a b => a.bind fun x => b.map fun y => x + y) (none : Val) = none := by
  induction l with
  | nil => rfl
  | cons a l ih => rw [List.foldl_cons]; exact ih

/-- C62: for finite correlations `wp` is twice the sum of correlation times bin width; for a constant correlation that is
the full line-of-sight length times the constant. -/
theorem wp_eq (corr : List ℚ) (pi : List ℚ) :
    wp (corr.map some) pi = some (2 * (List.zipWith (fun c d => c * d) corr (diff pi)).sum) := by
  unfold wp
  have : ((corr.map some).zip (diff pi)).map (fun p => p.1.map fun c => 2 * c * p.2) =
      ((List.zipWith (fun c d => c * d) corr (diff pi)).map fun x => 2 * x).map fun v => (some v : Val) := by
    rw [List.zip_map_left, List.map_map, List.map_map, List.map_zipWith]
    rw [List.zip_eq_zipWith, List.map_zipWith]
    congr 1
    funext a b
    simp only [Function.comp_def, Prod.map, Option.map_some, id]
    congr 1
    ring
  rw [this, fold_some, sum_scale, List.map_id', zero_add]

/-- C62: for `pimax` of at least 1 the line-of-sight edges run from 0 to `pimax` in steps of equal width of at least 1. -/
theorem piEdges_spec (pimax : ℚ) (h : 1 ≤ pimax) :
    ∃ hne : piEdges pimax ≠ [], (piEdges pimax).head hne = 0 ∧ (piEdges pimax).getLast hne = pimax ∧
      ∃ w : ℚ, 1 ≤ w ∧ ∀ i a b, (piEdges pimax)[i]? = some a → (piEdges pimax)[i + 1]? = some b → b - a = w := by
  obtain ⟨k, hk⟩ : ∃ k : Nat, (pimax + 1).floor.toNat = k + 2 := by
    have h2 : (2 : ℤ) ≤ (pimax + 1).floor := by
      rw [Rat.le_floor_iff]; push_cast; linarith
    exact ⟨(pimax + 1).floor.toNat - 2, by omega⟩
  have hfl : ((k : ℚ) + 2) ≤ pimax + 1 := by
    have h1 : (((k + 2 : Nat) : ℤ)) ≤ (pimax + 1).floor := by
      rw [← hk]
      have h2 : (2 : ℤ) ≤ (pimax + 1).floor := by
        rw [Rat.le_floor_iff]; push_cast; linarith
      omega
    rw [Rat.le_floor_iff] at h1
    push_cast at h1
    exact h1
  have e : piEdges pimax = (List.range (k + 2)).map fun (i : Nat) => pimax * i / (k + 1 : Nat) := by
    unfold piEdges; rw [hk]; rfl
  have hk0 : ((k + 1 : Nat) : ℚ) ≠ 0 := Nat.cast_ne_zero.mpr (by omega)
  have hk1 : (0 : ℚ) < ((k + 1 : Nat) : ℚ) := Nat.cast_pos.mpr (by omega)
  have hne : piEdges pimax ≠ [] := by rw [e]; simp
  refine ⟨hne, ?_, ?_, pimax / (k + 1 : Nat), ?_, ?_⟩
  · simp only [e, List.head_map, List.head_range]; simp
  · simp only [e, List.getLast_map, List.getLast_range]
    show pimax * ((k + 2 - 1 : Nat) : ℚ) / _ = _
    have : k + 2 - 1 = k + 1 := by omega
    rw [this]
    field_simp
  · rw [le_div_iff₀ hk1]; push_cast; linarith
  · intro i a b ha hb
    rw [e, List.getElem?_map] at ha hb
    obtain ⟨x, hx, rfl⟩ := Option.map_eq_some_iff.mp ha
    obtain ⟨y, hy, rfl⟩ := Option.map_eq_some_iff.mp hb
    rw [List.getElem?_eq_some_iff] at hx hy
    obtain ⟨_, rfl⟩ := hx
    obtain ⟨_, rfl⟩ := hy
    simp only [List.getElem_range]
    push_cast
    field_simp
    ring

theorem wp_const (c pimax : ℚ) (pi : List ℚ) (hpi : pi ≠ []) (h0 : pi.head hpi = 0) (h1 : pi.getLast hpi = pimax) :
    wp (List.replicate (pi.length - 1) (some c)) pi = some (2 * c * pimax) := by
  have hl : (diff pi).length = pi.length - 1 := by simp [diff]
  have h := wp_eq (List.replicate (pi.length - 1) c) pi
  rw [List.map_replicate] at h
  rw [h]
  have : List.zipWith (fun c d => c * d) (List.replicate (pi.length - 1) c) (diff pi) = (diff pi).map fun d => c * d := by
    apply List.ext_getElem
    · simp [hl]
    · intro k _ _; simp
  rw [this, sum_scale, List.map_id']
  obtain ⟨m, ms, rfl⟩ := List.exists_cons_of_ne_nil hpi
  rw [diff_sum, h1]
  simp only [List.head_cons] at h0
  rw [h0]
  congr 1
  ring

/-- C62: the monopole of wedges is their mean with the bin widths as weights. -/
theorem monopole_eq (corr : List ℚ) (mu : List ℚ) (hw : (diff mu).sum ≠ 0) :
    pole 0 (fun _ => 1) (corr.map some) mu =
      some ((List.zipWith (fun c d => c * d) corr (diff mu)).sum / (diff mu).sum) := by
  unfold pole
  dsimp only
  have : ((corr.map some).zip ((List.zipWith (fun a b => (b + a) / 2) mu mu.tail).zip (diff mu))).map
      (fun p => p.1.map fun c => c * ((2 * ((0 : Nat) : ℚ) + 1) * 1) * p.2.2) =
      (List.zipWith (fun c d => c * d) corr (diff mu)).map fun v => (some v : Val) := by
    apply List.ext_getElem
    · simp [diff]
    · intro k _ _
      simp
  rw [this, fold_some, zero_add]
  simp only [Option.bind_some, fdiv, if_neg hw]

/-- C62 fails when there is a single line-of-sight bin: `pimax` from 1 (the smallest value accepted, base.py 31) up to
2 gives one bin, and averaging over a dimension with one bin fails, so that no result is returned. -/
theorem wp_single_bin {A : Type} (oldNumpy : Bool) (world : Binned.World) (corr : Binned.BS A) (hw : Binned.WF corr)
    (pimax : ℚ) (h1 : 1 ≤ pimax) (h2 : pimax < 2) (rp : String) (e : List ℚ) (hd : corr.dims = [rp, "pi"])
    (he : corr.edges = [e, piEdges pimax]) : wpObject oldNumpy world corr = .error .indexError := by
  have hfl : ⌊pimax + 1⌋ = 2 := by
    rw [Int.floor_eq_iff]
    constructor
    · push_cast; linarith
    · push_cast; linarith
  have hlen : (piEdges pimax).length = 2 := by
    unfold piEdges
    dsimp only
    rw [List.length_map, List.length_range]
    show (⌊pimax + 1⌋).toNat = 2
    rw [hfl]; rfl
  unfold wpObject
  rw [hd]
  obtain ⟨c, hc⟩ : ∃ c, corr.coords[1]? = some c :=
    ⟨_, List.getElem?_eq_getElem (by rw [hw.lcoords, hd]; simp)⟩
  have hcl : c.length = 1 := by
    have := hw.bins 1 (piEdges pimax) c (by rw [he]; rfl) hc
    rw [hlen] at this
    omega
  exact Binned.average_single oldNumpy world corr hw "pi" .none true none 1 (by rw [hd]; rfl)
    (by simp [Binned.BS.shape, hc, hcl])

example : wp [some 1, some 3] [0, 1, 2] = some 8 ∧ wp [some 1, none] [0, 1, 2] = none ∧
    pole 2 (fun x => (3 * x ^ 2 - 1) / 2) [some 1, some 1] [0, 1/2, 1] = some (5 * ((3/16 - 1)/2 + (27/16 - 1)/2) / 2) := by
  decide +kernel

end NBK.Estim
