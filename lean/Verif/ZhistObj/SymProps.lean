import Verif.ZhistObj.ProgProps
import Verif.Zhist.Props

set_option linter.unusedSimpArgs false

/-!
# Densities of redshift histograms under changes of weights, sky fraction, units, bins and catalogs

Calls `RedshiftHistogram(source, fsky, cosmo, bins=array)` are compared that differ in the catalog or in one argument.
-/
namespace NBK.ZhistObj

/-- A construction, in a state of the program. -/
structure Call where
  e : Env
  w : World
  a : Args

/-- The results seen at the new object. -/
def Call.res (c : Call) : Option Res :=
  match make c.e c.w c.a with
  | .ok w' => (look w' c.w.objs.length).map Saved.res
  | .error _ => none

/-- The edges are an array with the sorted items `l`, and `D` has the redshifts and weights (1 without a column) of the ranks. -/
structure Call.Fits (c : Call) (l : List ℚ) (D : List (List (ℚ × ℚ))) : Prop where
  data : ∃ cat k z wt, c.w.cats[c.a.source]? = some cat ∧ c.a.bins = .seq (.arr k) ∧ c.w.arrs[k]? = some l ∧ cat.cols c.a.redshift = some z ∧
    (c.a.weight = none ∧ wt = none ∨ ∃ n v, c.a.weight = some n ∧ cat.cols n = some v ∧ wt = some v) ∧ D = pairs z wt
  sorted : l.Pairwise (· ≤ ·)
  ranks : D ≠ []

/-- The distance of the cosmology of a call. -/
def Call.dist (c : Call) : ℚ → ℚ := c.e.dist c.a.cosmo

theorem Call.Fits.res {c : Call} {l : List ℚ} {D : List (List (ℚ × ℚ))} (h : c.Fits l D) :
    c.res = some ⟨List.zipWith (fun x y => (x + y) / 2) l.dropLast l.tail, Zhist.volumes c.e.pi c.a.fsky c.dist l, Zhist.nbar c.e.pi c.a.fsky c.dist l D⟩ := by
  obtain ⟨cat, k, z, wt, h1, h2, h3, h4, h5, rfl⟩ := h.data
  obtain ⟨w', e1, e2⟩ := (make_array c.e c.w c.a k l cat h1 h2 h3).1 z wt h4 h5
  rw [Call.res, e1]
  show (look w' c.w.objs.length).map Saved.res = _
  rw [e2]; rfl

/-- What a bin `b` with the edges `lo` and `hi` has: the weight of the redshifts from `lo` up to `hi`, over the volume of the shell; `none` (NaN or infinite) if that is 0. -/
def density (π fsky : ℚ) (r : ℚ → ℚ) (objs : List (ℚ × ℚ)) (lo hi : ℚ) : Option ℚ :=
  if 4 / 3 * π * (r hi ^ 3 - r lo ^ 3) * fsky = 0 then none
  else some ((objs.map fun o => if lo ≤ o.1 ∧ o.1 < hi then o.2 else 0).sum / (4 / 3 * π * (r hi ^ 3 - r lo ^ 3) * fsky))

theorem nbar_get (π fsky : ℚ) (r : ℚ → ℚ) (l : List ℚ) (hs : l.Pairwise (· ≤ ·)) (D : List (List (ℚ × ℚ))) (hD : D ≠ []) :
    Zhist.nbar π fsky r l D = List.zipWith (density π fsky r D.flatten) l l.tail := by
  obtain ⟨h1, h2⟩ := Zhist.hist_eq l hs D hD
  apply List.ext_getElem?
  intro b
  unfold Zhist.nbar
  rw [List.getElem?_zipWith, List.getElem?_zipWith, List.getElem?_tail]
  by_cases hb : b + 1 < l.length
  · have e1 : l[b]? = some (l.getD b 0) := by rw [List.getD_eq_getElem _ _ (by omega), List.getElem?_eq_getElem]
    have e2 : l[b + 1]? = some (l.getD (b + 1) 0) := by rw [List.getD_eq_getElem _ _ hb, List.getElem?_eq_getElem]
    rw [h2 b hb, Zhist.volumes_get π fsky r l b _ _ e1 e2, e1, e2]
    rfl
  · rw [List.getElem?_eq_none (l := Zhist.hist l D) (by omega), List.getElem?_eq_none (l := l) (i := b + 1) (by omega)]
    cases l[b]? <;> rfl

/-- **Bins**: the density of each bin is the weight of its redshifts, over all ranks, per volume of the shell. -/
theorem Call.Fits.nbar {c : Call} {l : List ℚ} {D : List (List (ℚ × ℚ))} (h : c.Fits l D) :
    c.res.map Res.nbar = some (List.zipWith (density c.e.pi c.a.fsky c.dist D.flatten) l l.tail) := by
  rw [h.res, Option.map_some, nbar_get _ _ _ _ h.sorted _ h.ranks]

/-! ## Changes -/

/-- Two calls whose edges, sky fraction and distances are the same. -/
structure Alike (c c' : Call) (l : List ℚ) : Prop where
  pi : c'.e.pi = c.e.pi
  fsky : c'.a.fsky = c.a.fsky
  dist : ∀ x ∈ l, c'.dist x = c.dist x

theorem density_congr (c c' : Call) (l : List ℚ) (h : Alike c c' l) (objs : List (ℚ × ℚ)) (lo hi : ℚ) (h1 : lo ∈ l) (h2 : hi ∈ l) :
    density c'.e.pi c'.a.fsky c'.dist objs lo hi = density c.e.pi c.a.fsky c.dist objs lo hi := by
  unfold density
  rw [h.pi, h.fsky, h.dist lo h1, h.dist hi h2]

theorem zipWith_congr_mem (f g : ℚ → ℚ → Option ℚ) (l m : List ℚ) (h : ∀ x ∈ l, ∀ y ∈ m, f x y = g x y) : List.zipWith f l m = List.zipWith g l m := by
  induction l generalizing m with
  | nil => rfl
  | cons a l ih =>
    cases m with
    | nil => rfl
    | cons b m => rw [List.zipWith_cons_cons, List.zipWith_cons_cons, h a (by simp) b (by simp), ih m fun x hx y hy => h x (by simp [hx]) y (by simp [hy])]

theorem tail_mem {l : List ℚ} {y : ℚ} (h : y ∈ l.tail) : y ∈ l := List.mem_of_mem_tail h

/-- **Any layout**: the same redshifts and weights in any order on any ranks have the same results. -/
theorem nbar_layout (c c' : Call) (l : List ℚ) (D D' : List (List (ℚ × ℚ))) (h : c.Fits l D) (h' : c'.Fits l D') (ha : Alike c c' l) (hp : D'.flatten.Perm D.flatten) : c'.res = c.res := by
  have hv : Zhist.volumes c'.e.pi c'.a.fsky c'.dist l = Zhist.volumes c.e.pi c.a.fsky c.dist l := by
    unfold Zhist.volumes
    have : ∀ (a b : List ℚ), (∀ x ∈ a, x ∈ l) → (∀ x ∈ b, x ∈ l) → List.zipWith (fun hi lo => 4 / 3 * c'.e.pi * (c'.dist hi ^ 3 - c'.dist lo ^ 3) * c'.a.fsky) a b =
        List.zipWith (fun hi lo => 4 / 3 * c.e.pi * (c.dist hi ^ 3 - c.dist lo ^ 3) * c.a.fsky) a b := by
      intro a
      induction a with
      | nil => intros; rfl
      | cons x a ih =>
        intro b ha1 hb1
        cases b with
        | nil => rfl
        | cons y b =>
          rw [List.zipWith_cons_cons, List.zipWith_cons_cons, ih b (fun x hx => ha1 x (by simp [hx])) (fun x hx => hb1 x (by simp [hx])), ha.pi, ha.fsky, ha.dist x (ha1 x (by simp)),
            ha.dist y (hb1 y (by simp))]
    exact this _ _ (fun x hx => tail_mem hx) (fun x hx => List.dropLast_subset _ hx)
  rw [h.res, h'.res, hv, nbar_get _ _ _ _ h.sorted _ h.ranks, nbar_get _ _ _ _ h'.sorted _ h'.ranks]
  congr 2
  apply zipWith_congr_mem
  intro x hx y hy
  rw [density_congr c c' l ha _ x y hx (tail_mem hy)]
  unfold density
  rw [(hp.map _).sum_eq]

theorem sum_scaled (t : ℚ) (objs : List (ℚ × ℚ)) (lo hi : ℚ) : ((objs.map fun o => (o.1, t * o.2)).map fun o => if lo ≤ o.1 ∧ o.1 < hi then o.2 else 0).sum =
    t * (objs.map fun o => if lo ≤ o.1 ∧ o.1 < hi then o.2 else 0).sum := by
  induction objs with
  | nil => simp
  | cons o objs ih =>
    simp only [List.map_cons, List.sum_cons, ih]
    split
    · ring
    · ring

theorem map_zipWith_eq (g : Option ℚ → Option ℚ) (f f' : ℚ → ℚ → Option ℚ) (l m : List ℚ) (h : ∀ x ∈ l, ∀ y ∈ m, f' x y = g (f x y)) : List.zipWith f' l m = (List.zipWith f l m).map g := by
  rw [zipWith_congr_mem f' (fun x y => g (f x y)) l m h, List.map_zipWith]

/-- **Weights** `t` times as large make every density `t` times as large. -/
theorem nbar_weights (c c' : Call) (l : List ℚ) (D D' : List (List (ℚ × ℚ))) (h : c.Fits l D) (h' : c'.Fits l D') (ha : Alike c c' l) (t : ℚ)
    (hp : D'.flatten.Perm (D.flatten.map fun o => (o.1, t * o.2))) : c'.res.map Res.nbar = (c.res.map Res.nbar).map fun v => v.map fun x => x.map (t * ·) := by
  rw [h.nbar, h'.nbar, Option.map_some]
  congr 1
  apply map_zipWith_eq
  intro x hx y hy
  rw [density_congr c c' l ha _ x y hx (tail_mem hy)]
  unfold density
  rw [(hp.map _).sum_eq, sum_scaled]
  by_cases h0 : 4 / 3 * c.e.pi * (c.dist y ^ 3 - c.dist x ^ 3) * c.a.fsky = 0
  · rw [if_pos h0, if_pos h0]; rfl
  · rw [if_neg h0, if_neg h0, Option.map_some, mul_div_assoc]

/-- **Two catalogs**: the densities of all objects together are the sums of those of the two. -/
theorem nbar_both (c c1 c2 : Call) (l : List ℚ) (D D1 D2 : List (List (ℚ × ℚ))) (h : c.Fits l D) (h1 : c1.Fits l D1) (h2 : c2.Fits l D2) (ha1 : Alike c c1 l) (ha2 : Alike c c2 l)
    (hp : D.flatten.Perm (D1.flatten ++ D2.flatten)) (b : Nat) :
    (c.res.bind fun r => r.nbar[b]?) = (c1.res.bind fun r => r.nbar[b]?).bind fun x => (c2.res.bind fun r => r.nbar[b]?).map fun y => x.bind fun p => y.map fun q => p + q := by
  rw [h.res, h1.res, h2.res]
  simp only [Option.bind_some, nbar_get _ _ _ _ h.sorted _ h.ranks, nbar_get _ _ _ _ h1.sorted _ h1.ranks, nbar_get _ _ _ _ h2.sorted _ h2.ranks]
  rw [List.getElem?_zipWith, List.getElem?_zipWith, List.getElem?_zipWith]
  cases e1 : l[b]? with
  | none => rfl
  | some x =>
    cases e2 : l.tail[b]? with
    | none => rfl
    | some y =>
      have hx : x ∈ l := List.mem_of_getElem? e1
      have hy : y ∈ l := tail_mem (List.mem_of_getElem? e2)
      simp only [Option.bind_some, Option.map_some]
      rw [density_congr c c1 l ha1 _ x y hx hy, density_congr c c2 l ha2 _ x y hx hy]
      unfold density
      rw [(hp.map _).sum_eq, List.map_append, List.sum_append]
      by_cases h0 : 4 / 3 * c.e.pi * (c.dist y ^ 3 - c.dist x ^ 3) * c.a.fsky = 0
      · simp only [if_pos h0]; rfl
      · simp only [if_neg h0, Option.bind_some, Option.map_some, add_div]

/-- **Sky fraction**: with `t` times the fraction every density is divided by `t`; the shells are `t` times as large. -/
theorem nbar_fsky (c c' : Call) (l : List ℚ) (D : List (List (ℚ × ℚ))) (h : c.Fits l D) (h' : c'.Fits l D) (hpi : c'.e.pi = c.e.pi) (hd : c'.dist = c.dist) (t : ℚ) (ht : t ≠ 0)
    (hf : c'.a.fsky = t * c.a.fsky) : (c'.res.map Res.nbar = (c.res.map Res.nbar).map fun v => v.map fun x => x.map (· / t)) ∧ c'.res.map Res.dV = (c.res.map Res.dV).map fun v => v.map (t * ·) := by
  constructor
  · rw [h.nbar, h'.nbar, Option.map_some]
    congr 1
    apply map_zipWith_eq
    intro x hx y hy
    unfold density
    rw [hpi, hd, hf, show 4 / 3 * c.e.pi * (c.dist y ^ 3 - c.dist x ^ 3) * (t * c.a.fsky) = 4 / 3 * c.e.pi * (c.dist y ^ 3 - c.dist x ^ 3) * c.a.fsky * t by ring]
    by_cases h0 : 4 / 3 * c.e.pi * (c.dist y ^ 3 - c.dist x ^ 3) * c.a.fsky = 0
    · rw [if_pos h0, if_pos (by rw [h0, zero_mul])]; rfl
    · rw [if_neg h0, if_neg (mul_ne_zero h0 ht), Option.map_some, div_div]
  · rw [h.res, h'.res]
    simp only [Option.map_some, Zhist.volumes, hpi, hd, hf, List.map_zipWith]
    congr 2
    funext x y
    ring

/-- **Units**: with distances `u` times as long every density is divided by `u^3`; the shells are `u^3` times as large. -/
theorem nbar_units (c c' : Call) (l : List ℚ) (D : List (List (ℚ × ℚ))) (h : c.Fits l D) (h' : c'.Fits l D) (hpi : c'.e.pi = c.e.pi) (hf : c'.a.fsky = c.a.fsky) (u : ℚ) (hu : u ≠ 0)
    (hd : ∀ x, c'.dist x = u * c.dist x) : (c'.res.map Res.nbar = (c.res.map Res.nbar).map fun v => v.map fun x => x.map (· / u ^ 3)) ∧
    c'.res.map Res.dV = (c.res.map Res.dV).map fun v => v.map (u ^ 3 * ·) := by
  constructor
  · rw [h.nbar, h'.nbar, Option.map_some]
    congr 1
    apply map_zipWith_eq
    intro x hx y hy
    unfold density
    rw [hpi, hf, hd, hd, show 4 / 3 * c.e.pi * ((u * c.dist y) ^ 3 - (u * c.dist x) ^ 3) * c.a.fsky = 4 / 3 * c.e.pi * (c.dist y ^ 3 - c.dist x ^ 3) * c.a.fsky * u ^ 3 by ring]
    by_cases h0 : 4 / 3 * c.e.pi * (c.dist y ^ 3 - c.dist x ^ 3) * c.a.fsky = 0
    · rw [if_pos h0, if_pos (by rw [h0, zero_mul])]; rfl
    · rw [if_neg h0, if_neg (mul_ne_zero h0 (pow_ne_zero _ hu)), Option.map_some, div_div]
  · rw [h.res, h'.res]
    simp only [Option.map_some, Zhist.volumes, hpi, hf, hd, List.map_zipWith]
    congr 2
    funext x y
    ring

theorem sum_split (objs : List (ℚ × ℚ)) (x y z : ℚ) (h1 : x ≤ y) (h2 : y ≤ z) : (objs.map fun o => if x ≤ o.1 ∧ o.1 < z then o.2 else 0).sum =
    (objs.map fun o => if x ≤ o.1 ∧ o.1 < y then o.2 else 0).sum + (objs.map fun o => if y ≤ o.1 ∧ o.1 < z then o.2 else 0).sum := by
  induction objs with
  | nil => simp
  | cons o objs ih =>
    simp only [List.map_cons, List.sum_cons, ih]
    have : (if x ≤ o.1 ∧ o.1 < z then o.2 else 0) = (if x ≤ o.1 ∧ o.1 < y then o.2 else 0) + (if y ≤ o.1 ∧ o.1 < z then o.2 else 0) := by
      by_cases a : o.1 < y
      · rw [if_neg (c := y ≤ o.1 ∧ o.1 < z) (by rintro ⟨b, -⟩; linarith), add_zero]
        by_cases b : x ≤ o.1
        · rw [if_pos ⟨b, by linarith⟩, if_pos ⟨b, a⟩]
        · rw [if_neg (fun c => b c.1), if_neg (fun c => b c.1)]
      · rw [if_neg (c := x ≤ o.1 ∧ o.1 < y) (fun c => a c.2), zero_add]
        push Not at a
        by_cases b : o.1 < z
        · rw [if_pos ⟨by linarith, b⟩, if_pos ⟨a, b⟩]
        · rw [if_neg (fun c => b c.2), if_neg (fun c => b c.2)]
    rw [this]; ring

/-- **Merged bins**: without one inner edge the density of the bin is the mean of the two, by volume; the bins before and after keep theirs. -/
theorem nbar_merged (c c' : Call) (l1 l2 : List ℚ) (x y z : ℚ) (D : List (List (ℚ × ℚ))) (h : c.Fits (l1 ++ x :: y :: z :: l2) D) (h' : c'.Fits (l1 ++ x :: z :: l2) D)
    (ha : Alike c c' (l1 ++ x :: y :: z :: l2)) : ∃ r r' v1 v2, c.res = some r ∧ c'.res = some r' ∧ r.dV[l1.length]? = some v1 ∧ r.dV[l1.length + 1]? = some v2 ∧
      r'.dV[l1.length]? = some (v1 + v2) ∧
      (∀ p q, r.nbar[l1.length]? = some (some p) → r.nbar[l1.length + 1]? = some (some q) → v1 + v2 ≠ 0 → r'.nbar[l1.length]? = some (some ((v1 * p + v2 * q) / (v1 + v2)))) ∧
      (∀ b, b < l1.length → r'.nbar[b]? = r.nbar[b]?) ∧ ∀ b, l1.length < b → r'.nbar[b]? = r.nbar[b + 1]? := by
  have hd : ∀ w ∈ l1 ++ x :: y :: z :: l2, c'.dist w = c.dist w := ha.dist
  have hx : c'.dist x = c.dist x := hd x (by simp)
  have hz : c'.dist z = c.dist z := hd z (by simp)
  have g : ∀ (l2' : List ℚ) (b : Nat), (l1 ++ l2')[l1.length + b]? = l2'[b]? := fun l2' b => by rw [List.getElem?_append_right (by omega)]; congr 1; omega
  have n1 := nbar_get c.e.pi c.a.fsky c.dist _ h.sorted D h.ranks
  have n2 := nbar_get c'.e.pi c'.a.fsky c'.dist _ h'.sorted D h'.ranks
  have hs := h.sorted
  rw [List.pairwise_append] at hs
  have hs2 := hs.2.1
  simp only [List.pairwise_cons, List.mem_cons] at hs2
  have hxy : x ≤ y := hs2.1 y (by simp)
  have hyz : y ≤ z := hs2.2.1 z (by simp)
  have tl : ∀ (l : List ℚ) (b : Nat), l.tail[b]? = l[b + 1]? := fun l b => List.getElem?_tail
  refine ⟨_, _, _, _, h.res, h'.res, Zhist.volumes_get _ _ _ _ _ x y (by simpa using g (x :: y :: z :: l2) 0) (by simpa using g (x :: y :: z :: l2) 1),
    Zhist.volumes_get _ _ _ _ _ y z (by simpa using g (x :: y :: z :: l2) 1) (g (x :: y :: z :: l2) 2), ?_, ?_, ?_, ?_⟩
  · rw [Zhist.volumes_get _ _ _ _ _ x z (by simpa using g (x :: z :: l2) 0) (by simpa using g (x :: z :: l2) 1), ha.pi, ha.fsky, hx, hz]
    congr 1
    ring
  · intro p q hp hq hv
    show (Zhist.nbar _ _ _ _ D)[l1.length]? = _
    change (Zhist.nbar _ _ _ _ D)[l1.length]? = _ at hp
    change (Zhist.nbar _ _ _ _ D)[l1.length + 1]? = _ at hq
    rw [n1, List.getElem?_zipWith, tl] at hp hq
    rw [n2, List.getElem?_zipWith, tl]
    have a0 := g (x :: y :: z :: l2) 0
    have a1 := g (x :: y :: z :: l2) 1
    have a2 := g (x :: y :: z :: l2) 2
    have b0 := g (x :: z :: l2) 0
    have b1 := g (x :: z :: l2) 1
    simp only [Nat.add_zero, List.getElem?_cons_zero, List.getElem?_cons_succ] at a0 a1 a2 b0 b1
    rw [a0, a1] at hp
    rw [a1, show l1.length + 1 + 1 = l1.length + 2 from rfl, a2] at hq
    rw [b0, b1]
    simp only [Option.some.injEq] at hp hq ⊢
    unfold density at hp hq ⊢
    by_cases e1 : 4 / 3 * c.e.pi * (c.dist y ^ 3 - c.dist x ^ 3) * c.a.fsky = 0
    · rw [if_pos e1] at hp; cases hp
    by_cases e2 : 4 / 3 * c.e.pi * (c.dist z ^ 3 - c.dist y ^ 3) * c.a.fsky = 0
    · rw [if_pos e2] at hq; cases hq
    rw [if_neg e1, Option.some.injEq] at hp
    rw [if_neg e2, Option.some.injEq] at hq
    have e3 : 4 / 3 * c'.e.pi * (c'.dist z ^ 3 - c'.dist x ^ 3) * c'.a.fsky = 4 / 3 * c.e.pi * (c.dist y ^ 3 - c.dist x ^ 3) * c.a.fsky + 4 / 3 * c.e.pi * (c.dist z ^ 3 - c.dist y ^ 3) * c.a.fsky := by
      rw [ha.pi, ha.fsky, hx, hz]; ring
    rw [e3, if_neg hv, sum_split D.flatten x y z hxy hyz, ← hp, ← hq, mul_div_cancel₀ _ e1, mul_div_cancel₀ _ e2]
  · intro b hb
    show (Zhist.nbar _ _ _ _ D)[b]? = (Zhist.nbar _ _ _ _ D)[b]?
    rw [n1, n2, List.getElem?_zipWith, List.getElem?_zipWith, tl, tl]
    have a0 : ∀ m : List ℚ, (l1 ++ x :: m)[b]? = l1[b]? := fun m => List.getElem?_append_left hb
    have a1 : ∀ m : List ℚ, (l1 ++ x :: m)[b + 1]? = (l1 ++ [x])[b + 1]? := fun m => by
      by_cases hb' : b + 1 < l1.length
      · rw [List.getElem?_append_left hb', List.getElem?_append_left hb']
      · rw [List.getElem?_append_right (by omega), List.getElem?_append_right (by omega), show b + 1 - l1.length = 0 by omega]; rfl
    rw [a0 (z :: l2), a0 (y :: z :: l2), a1 (z :: l2), a1 (y :: z :: l2)]
    cases e1 : l1[b]? with
    | none => rfl
    | some p =>
      cases e2 : (l1 ++ [x])[b + 1]? with
      | none => rfl
      | some q =>
        simp only [Option.some.injEq]
        have m2 := List.mem_of_getElem? e2
        refine density_congr c c' _ ha _ p q (by simp [List.mem_of_getElem? e1]) ?_
        rcases List.mem_append.1 m2 with m | m
        · simp [m]
        · rw [List.mem_singleton] at m; simp [m]
  · intro b hb
    show (Zhist.nbar _ _ _ _ D)[b]? = (Zhist.nbar _ _ _ _ D)[b + 1]?
    rw [n1, n2, List.getElem?_zipWith, List.getElem?_zipWith, tl, tl]
    obtain ⟨k, rfl⟩ : ∃ k, b = l1.length + (k + 1) := ⟨b - l1.length - 1, by omega⟩
    have a0 : (l1 ++ x :: z :: l2)[l1.length + (k + 1)]? = (z :: l2)[k]? := g (x :: z :: l2) (k + 1)
    have a1 : (l1 ++ x :: z :: l2)[l1.length + (k + 1) + 1]? = (z :: l2)[k + 1]? := g (x :: z :: l2) (k + 2)
    have a2 : (l1 ++ x :: y :: z :: l2)[l1.length + (k + 1) + 1]? = (z :: l2)[k]? := g (x :: y :: z :: l2) (k + 2)
    have a3 : (l1 ++ x :: y :: z :: l2)[l1.length + (k + 1) + 1 + 1]? = (z :: l2)[k + 1]? := g (x :: y :: z :: l2) (k + 3)
    rw [a0, a1, a2, a3]
    cases e1 : (z :: l2)[k]? with
    | none => rfl
    | some p =>
      cases e2 : (z :: l2)[k + 1]? with
      | none => rfl
      | some q =>
        simp only [Option.some.injEq]
        have m1 := List.mem_of_getElem? e1
        have m2 := List.mem_of_getElem? e2
        exact density_congr c c' _ ha _ p q (List.mem_append_right _ (List.mem_cons_of_mem _ (List.mem_cons_of_mem _ m1)))
          (List.mem_append_right _ (List.mem_cons_of_mem _ (List.mem_cons_of_mem _ m2)))

/-- **Signs**: with weights not below 0, a sky fraction and pi above 0 and distances that grow, no density is below 0. -/
theorem nbar_nonneg (c : Call) (l : List ℚ) (D : List (List (ℚ × ℚ))) (h : c.Fits l D) (hw : ∀ o ∈ D.flatten, 0 ≤ o.2) (hpi : 0 < c.e.pi) (hf : 0 < c.a.fsky)
    (hd : ∀ x ∈ l, ∀ y ∈ l, x ≤ y → c.dist x ≤ c.dist y) (r : Res) (hr : c.res = some r) (b : Nat) (v : ℚ) (hv : r.nbar[b]? = some (some v)) : 0 ≤ v := by
  have hn := h.nbar
  rw [hr, Option.map_some, Option.some.injEq] at hn
  rw [hn, List.getElem?_zipWith, List.getElem?_tail] at hv
  cases e1 : l[b]? with
  | none => rw [e1] at hv; simp at hv
  | some x =>
    cases e2 : l[b + 1]? with
    | none => rw [e1, e2] at hv; simp at hv
    | some y =>
      rw [e1, e2] at hv
      simp only [Option.some.injEq] at hv
      obtain ⟨i1, j1⟩ := List.getElem?_eq_some_iff.1 e1
      obtain ⟨i2, j2⟩ := List.getElem?_eq_some_iff.1 e2
      have hxy : x ≤ y := by rw [← j1, ← j2]; exact List.pairwise_iff_getElem.1 h.sorted b (b + 1) i1 i2 (by omega)
      have hdd := hd x (List.mem_of_getElem? e1) y (List.mem_of_getElem? e2) hxy
      have h3 : 0 ≤ c.dist y ^ 3 - c.dist x ^ 3 := sub_nonneg.2 ((Odd.strictMono_pow (by decide)).monotone hdd)
      unfold density at hv
      by_cases h0 : 4 / 3 * c.e.pi * (c.dist y ^ 3 - c.dist x ^ 3) * c.a.fsky = 0
      · rw [if_pos h0] at hv; cases hv
      · rw [if_neg h0, Option.some.injEq] at hv
        rw [← hv]
        apply div_nonneg
        · apply List.sum_nonneg
          intro q hq
          obtain ⟨o, ho, rfl⟩ := List.mem_map.1 hq
          split
          · exact hw o ho
          · exact le_refl _
        · positivity

/-! ## Cases -/

/-- A catalog on two ranks, with weights, and two arrays of edges. -/
def symWorld : World := ⟨[[0, 1, 2, 4], [0, 2, 4]], [], [⟨7, fun n => if n = "Z" then some [[1/2, 3], [1, 3/2]] else if n = "W" then some [[1, 2], [3, 1]] else
  if n = "W2" then some [[2, 4], [6, 2]] else none⟩], [], fun _ => none⟩

def exCall (k : Nat) (u : ℚ) (fsky : ℚ) (w : String) : Call := ⟨⟨3, fun _ x => u * x, fun _ => 1⟩, symWorld, ⟨0, fsky, 0, .seq (.arr k), "Z", some w⟩⟩

def exD (t : ℚ) : List (List (ℚ × ℚ)) := [[(1/2, t), (3, 2 * t)], [(1, 3 * t), (3/2, t)]]

theorem fits0 (u fsky : ℚ) : (exCall 0 u fsky "W").Fits [0, 1, 2, 4] (exD 1) :=
  ⟨⟨_, 0, [[1/2, 3], [1, 3/2]], some [[1, 2], [3, 1]], rfl, rfl, rfl, rfl, Or.inr ⟨"W", _, rfl, by decide +kernel, rfl⟩, by decide +kernel⟩, by decide +kernel, by decide +kernel⟩

theorem fits1 (u fsky : ℚ) : (exCall 1 u fsky "W").Fits [0, 2, 4] (exD 1) :=
  ⟨⟨_, 1, [[1/2, 3], [1, 3/2]], some [[1, 2], [3, 1]], rfl, rfl, rfl, rfl, Or.inr ⟨"W", _, rfl, by decide +kernel, rfl⟩, by decide +kernel⟩, by decide +kernel, by decide +kernel⟩

theorem fits2 (u fsky : ℚ) : (exCall 0 u fsky "W2").Fits [0, 1, 2, 4] (exD 2) :=
  ⟨⟨_, 0, [[1/2, 3], [1, 3/2]], some [[2, 4], [6, 2]], rfl, rfl, rfl, rfl, Or.inr ⟨"W2", _, rfl, by decide +kernel, rfl⟩, by decide +kernel⟩, by decide +kernel, by decide +kernel⟩

/-- The densities of the case: the first bin has one object, the second two, the third one. -/
theorem case_values : (exCall 0 1 (1/4) "W").res.map Res.nbar = some [some 1, some (4/7), some (1/28)] ∧ (exCall 1 1 (1/4) "W").res.map Res.nbar = some [some (5/8), some (1/28)] := by
  rw [(fits0 1 (1/4)).nbar, (fits1 1 (1/4)).nbar]
  decide +kernel

/-- Twice the weights, half the sky fraction, distances in units half as large. -/
theorem case_changes : ((exCall 0 1 (1/4) "W2").res.map Res.nbar = ((exCall 0 1 (1/4) "W").res.map Res.nbar).map fun v => v.map fun x => x.map (2 * ·)) ∧
    ((exCall 0 1 (1/8) "W").res.map Res.nbar = ((exCall 0 1 (1/4) "W").res.map Res.nbar).map fun v => v.map fun x => x.map (· / (1/2))) ∧
    ((exCall 0 2 (1/4) "W").res.map Res.nbar = ((exCall 0 1 (1/4) "W").res.map Res.nbar).map fun v => v.map fun x => x.map (· / 2 ^ 3)) :=
  ⟨nbar_weights _ _ _ _ _ (fits0 1 (1/4)) (fits2 1 (1/4)) ⟨rfl, rfl, fun _ _ => rfl⟩ 2 (by decide +kernel),
   (nbar_fsky _ _ _ _ (fits0 1 (1/4)) (fits0 1 (1/8)) rfl rfl (1/2) (by norm_num) (by show (1/8 : ℚ) = 1/2 * (1/4); norm_num)).1,
   (nbar_units _ _ _ _ (fits0 1 (1/4)) (fits0 2 (1/4)) rfl rfl 2 (by norm_num) (fun x => by show 2 * x = 2 * (1 * x); ring)).1⟩

/-- Two bins merged. -/
theorem case_merged : ∃ r r' v1 v2, (exCall 0 1 (1/4) "W").res = some r ∧ (exCall 1 1 (1/4) "W").res = some r' ∧ r.dV[0]? = some v1 ∧ r.dV[1]? = some v2 ∧ r'.dV[0]? = some (v1 + v2) ∧
    (∀ p q, r.nbar[0]? = some (some p) → r.nbar[1]? = some (some q) → v1 + v2 ≠ 0 → r'.nbar[0]? = some (some ((v1 * p + v2 * q) / (v1 + v2)))) ∧ r'.nbar[1]? = r.nbar[2]? := by
  obtain ⟨r, r', v1, v2, h1, h2, h3, h4, h5, h6, -, h8⟩ := nbar_merged (exCall 0 1 (1/4) "W") (exCall 1 1 (1/4) "W") [] [4] 0 1 2 (exD 1) (fits0 1 (1/4)) (fits1 1 (1/4)) ⟨rfl, rfl, fun _ _ => rfl⟩
  exact ⟨r, r', v1, v2, h1, h2, h3, h4, h5, h6, h8 1 (by decide)⟩

/-- The rows of the case in another order on one rank, and those of each rank alone. -/
def partWorld : World := ⟨[[0, 1, 2, 4]], [], [⟨7, fun n => if n = "Z" then some [[3/2, 3, 1/2, 1]] else if n = "W" then some [[1, 2, 1, 3]] else none⟩,
  ⟨7, fun n => if n = "Z" then some [[1/2, 3]] else if n = "W" then some [[1, 2]] else none⟩, ⟨7, fun n => if n = "Z" then some [[], [1, 3/2]] else if n = "W" then some [[], [3, 1]] else none⟩], [], fun _ => none⟩

def partCall (k : Nat) : Call := ⟨⟨3, fun _ x => 1 * x, fun _ => 1⟩, partWorld, ⟨k, 1/4, 0, .seq (.arr 0), "Z", some "W"⟩⟩

theorem fitsP0 : (partCall 0).Fits [0, 1, 2, 4] [[(3/2, 1), (3, 2), (1/2, 1), (1, 3)]] :=
  ⟨⟨_, 0, [[3/2, 3, 1/2, 1]], some [[1, 2, 1, 3]], rfl, rfl, rfl, rfl, Or.inr ⟨"W", _, rfl, by decide +kernel, rfl⟩, by decide +kernel⟩, by decide +kernel, by decide +kernel⟩

theorem fitsP1 : (partCall 1).Fits [0, 1, 2, 4] [[(1/2, 1), (3, 2)]] :=
  ⟨⟨_, 0, [[1/2, 3]], some [[1, 2]], rfl, rfl, rfl, rfl, Or.inr ⟨"W", _, rfl, by decide +kernel, rfl⟩, by decide +kernel⟩, by decide +kernel, by decide +kernel⟩

theorem fitsP2 : (partCall 2).Fits [0, 1, 2, 4] [[], [(1, 3), (3/2, 1)]] :=
  ⟨⟨_, 0, [[], [1, 3/2]], some [[], [3, 1]], rfl, rfl, rfl, rfl, Or.inr ⟨"W", _, rfl, by decide +kernel, rfl⟩, by decide +kernel⟩, by decide +kernel, by decide +kernel⟩

/-- On one rank, in parts, and the sign of the densities. -/
theorem case_parts : (partCall 0).res = (exCall 0 1 (1/4) "W").res ∧
    ((partCall 0).res.bind fun r => r.nbar[1]?) = (((partCall 1).res.bind fun r => r.nbar[1]?).bind fun x => ((partCall 2).res.bind fun r => r.nbar[1]?).map fun y => x.bind fun p => y.map fun q => p + q) ∧
    (∀ (r : Res) (b : Nat) (v : ℚ), (partCall 0).res = some r → r.nbar[b]? = some (some v) → 0 ≤ v) :=
  ⟨nbar_layout _ _ _ _ _ (fits0 1 (1/4)) fitsP0 ⟨rfl, rfl, fun _ _ => rfl⟩ (by decide +kernel),
   nbar_both _ _ _ _ _ _ _ fitsP0 fitsP1 fitsP2 ⟨rfl, rfl, fun _ _ => rfl⟩ ⟨rfl, rfl, fun _ _ => rfl⟩ (by decide +kernel) 1,
   fun r b v hr hv => nbar_nonneg _ _ _ fitsP0 (by decide +kernel) (by show (0 : ℚ) < 3; norm_num) (by show (0 : ℚ) < 1/4; norm_num)
     (fun x _ y _ h => by show 1 * x ≤ 1 * y; linarith) r hr b v hv⟩

end NBK.ZhistObj
