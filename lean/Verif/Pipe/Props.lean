import Verif.Pipe.Model
import Verif.Paint.Props
import Verif.FftObj.Props
import Verif.Uedges.Props
import Mathlib.Tactic.Ring
import Mathlib.Tactic.FieldSimp
import Mathlib.Tactic.Linarith

/-! # C136: `FFTPower` and `FFTCorr` of particles on any number of ranks -/
set_option linter.unusedSimpArgs false
namespace NBK.Pipe
open Project (Cx)

theorem ext {a b : Cx} (h1 : a.re = b.re) (h2 : a.im = b.im) : a = b := by
  cases a; cases b; simp_all

theorem sum_perm {l l' : List Cx} (h : l.Perm l') : sum l = sum l' := by
  unfold sum
  rw [(h.map Cx.re).sum_eq, (h.map Cx.im).sum_eq]

/-- Exchange of the sums over cells and over rows. -/
theorem swap_sums {α β : Type} (q : α → ℚ) (d : α → β → ℚ) (t : β → ℚ) (c : ℚ) (rows : List α) (xs : List β) :
    (xs.map fun x => c * (rows.map fun r => q r * d r x).sum * t x).sum =
      c * (rows.map fun r => q r * (xs.map fun x => d r x * t x).sum).sum := by
  induction xs with
  | nil => simp
  | cons x xs ih =>
    simp only [List.map_cons, List.sum_cons, ih]
    have : (rows.map fun r => q r * (d r x * t x + (xs.map fun y => d r y * t y).sum)).sum =
        (rows.map fun r => q r * d r x).sum * t x + (rows.map fun r => q r * (xs.map fun y => d r y * t y).sum).sum := by
      clear ih
      induction rows with
      | nil => simp
      | cons r rows ih => simp only [List.map_cons, List.sum_cons, ih]; ring
    rw [this]
    ring

/-- The transform of the window of a particle at position `p`. -/
def window (w : World) (m p : Nat) : Cx := sum ((List.range w.ncells).map fun x => scale (w.dep p x) (w.tw m x))

/-- The sum over the particles of weight times value times the transform of the window. -/
def direct (w : World) (m : Nat) (rows : List Paint.Row) : Cx := sum (rows.map fun r => scale (r.weight * r.value) (window w m r.pos))

theorem direct_perm (w : World) (m : Nat) {l l' : List Paint.Row} (h : l.Perm l') : direct w m l = direct w m l' := sum_perm (h.map _)

theorem r2c_direct (w : World) (r : Paint.Result) (f : ℚ) (hf : r.factor = some f) (m : Nat) :
    r2c w (cellOf w r) m = scale (f / w.ncells) (direct w m r.mesh) := by
  unfold r2c cellOf direct window sum scale
  simp only [hf, List.map_map, Function.comp_def]
  have e : ∀ t : Nat → ℚ, ((List.range w.ncells).map fun x =>
      f * (r.mesh.map fun row => row.weight * row.value * w.dep row.pos x).sum / w.ncells * t x).sum =
      f / w.ncells * (r.mesh.map fun row => row.weight * row.value * ((List.range w.ncells).map fun x => w.dep row.pos x * t x).sum).sum := by
    intro t
    rw [← swap_sums]
    congr 1
    apply List.map_congr_left
    intro x _
    ring
  rw [e, e]

/-- The total weight of the selected particles. -/
def totalW (ranks : List (List Paint.Row)) : ℚ := ((Paint.selected ranks).map Paint.Row.weight).sum
def totalW2 (ranks : List (List Paint.Row)) : ℚ := ((Paint.selected ranks).map fun r => r.weight * r.weight).sum

theorem paint_rest (dest : Paint.Row → List Nat) (maxc : Nat) (ranks : List (List Paint.Row)) (n : Nat) (V : ℚ) (r : Paint.Result)
    (h : Paint.paint dest maxc ranks n V true = .ok r) :
    r.factor = (if totalW ranks / n > 0 then some (1 / (totalW ranks / n)) else none) ∧
    r.shotnoise = V * totalW2 ranks / totalW ranks ^ 2 ∧ r.N = (Paint.selected ranks).length ∧ r.mesh.Perm (Paint.selected ranks) := by
  obtain ⟨a1, a2, a3, a4, a5, -⟩ := Paint.paint_exactly_once _ _ _ _ _ _ _ h
  have key : r.factor = (if r.nbar > 0 then some (1 / r.nbar) else none) ∧ r.shotnoise = V * r.W2 / r.W ^ 2 := by
    unfold Paint.paint at h
    cases hl : Paint.loop dest maxc ranks ((ranks.map List.length).foldl max 0) 0 maxc ⟨[], ranks.map fun _ => ⟨0, 0, 0⟩⟩ with
    | error e => rw [hl] at h; cases h
    | ok s => rw [hl] at h; simp only [Except.ok.injEq] at h; subst h; exact ⟨rfl, rfl⟩
  refine ⟨?_, ?_, a2, a1⟩
  · rw [key.1, a5]; rfl
  · rw [key.2, a3, a4]; rfl

/-- C136: the coefficients of a catalog are the direct sum over its selected particles, each once, divided by their total weight; the field is uniform
if that is not positive. `N` and the shot noise are those of the selected particles, unless the mesh has attributes of these names. -/
theorem compute_direct (w : World) (hn : 0 < w.ncells) (mc : Machine) (V : ℚ) (comp : Nat → ℚ) (an : Option Nat) (as : Option ℚ)
    (rows : List (List Paint.Row)) (f : Fld) (h : compute w mc V (.particles comp an as rows) = .ok f) :
    (∀ m, f.coef m = if 0 < totalW rows then scale (comp m / totalW rows) (direct w m (Paint.selected rows))
      else scale (comp m) (sum ((List.range w.ncells).map fun x => scale (1 / w.ncells) (w.tw m x)))) ∧
    f.N = some (an.getD (Paint.selected rows).length) ∧ f.shot = some (as.getD (V * totalW2 rows / totalW rows ^ 2)) := by
  unfold compute at h
  simp only at h
  cases hp : Paint.paint mc.dest mc.maxc rows w.ncells V true with
  | error e => rw [hp] at h; cases h
  | ok r =>
    rw [hp] at h
    simp only [Except.ok.injEq] at h
    subst h
    obtain ⟨h1, h2, h3, h4⟩ := paint_rest _ _ _ _ _ _ hp
    have hq : (0 : ℚ) < w.ncells := by exact_mod_cast hn
    refine ⟨fun m => ?_, by rw [h3], by rw [h2]⟩
    by_cases hW : 0 < totalW rows
    · rw [if_pos hW]
      rw [if_pos (div_pos hW hq)] at h1
      show scale (comp m) (r2c w (cellOf w r) m) = _
      rw [r2c_direct w r _ h1, direct_perm w m h4]
      have : comp m / totalW rows = comp m * (1 / (totalW rows / w.ncells) / w.ncells) := by field_simp
      rw [this]
      unfold scale
      apply ext <;> simp only [mul_assoc]
    · rw [if_neg hW]
      rw [if_neg (fun hc => hW (by have := mul_pos hc hq; rwa [div_mul_cancel₀ _ hq.ne'] at this))] at h1
      show scale (comp m) (r2c w (cellOf w r) m) = _
      unfold r2c cellOf
      simp only [h1]

theorem compute_ok (w : World) (mc : Machine) (V : ℚ) (c : Content) (hm : 0 < mc.maxc)
    (hP : ∀ comp an as rows, c = .particles comp an as rows → rows.length ≤ 2 * mc.maxc) : ∃ f, compute w mc V c = .ok f := by
  cases c with
  | cells n s f => exact ⟨_, rfl⟩
  | particles comp an as rows =>
    obtain ⟨r, hr⟩ := Paint.paint_succeeds mc.dest mc.maxc hm rows (hP _ _ _ _ rfl) w.ncells V true
    unfold compute
    simp only [hr]
    exact ⟨_, rfl⟩

/-! ## The results depend on the fields only -/

theorem stat_data (k : FftObj.Kind) (b : Bool) (ed mu : List ℚ) (modes modes' : List (List (List Project.Mode)))
    (hp : (Project.modes modes).Perm (Project.modes modes')) (poles : List Nat) :
    FftObj.statData k b ed mu modes poles = FftObj.statData k b ed mu modes' poles ∧
    FftObj.poleData k ed mu modes poles = FftObj.poleData k ed mu modes' poles := by
  have hi := fun x2 => Project.project_independent k.hermitian x2 mu modes modes' hp poles
  unfold FftObj.statData FftObj.poleData
  simp only [(hi _).1, (hi _).2, and_self]

/-- The bins do not depend on how the modes are distributed. -/
def SameBins (e e' : FftObj.Env) (k : FftObj.Kind) (a : FftObj.Attrs) (modes modes' : List (List (List Project.Mode))) : Prop :=
  FftObj.xBins e k a modes = FftObj.xBins e' k a modes'

theorem run_congr (e e' : FftObj.Env) (k : FftObj.Kind) (a : FftObj.Attrs) (m1 m2 : FftObj.Mesh)
    (hc : ∀ s, e.count s = e'.count s) (hs : ∀ s, e.shot s = e'.shot s)
    (hp : (Project.modes (e.stat3d k a.nmesh m1.src m2.src)).Perm (Project.modes (e'.stat3d k a.nmesh m1.src m2.src)))
    (hb : SameBins e e' k a (e.stat3d k a.nmesh m1.src m2.src) (e'.stat3d k a.nmesh m1.src m2.src)) :
    FftObj.run e k a m1 m2 = FftObj.run e' k a m1 m2 := by
  unfold SameBins at hb
  have hd := fun b ed mu poles => stat_data k b ed mu _ _ hp poles
  unfold FftObj.run
  simp only [hc, hs, hb, (hd _ _ _ _).1, (hd false _ _ _).2]

/-- Two layouts hold the same modes and the same cells. -/
structure SameLayout (mc mc' : Machine) : Prop where
  modes : mc.modes.flatten.flatten.Perm mc'.modes.flatten.flatten
  cells : mc.cells.flatten.flatten.Perm mc'.cells.flatten.flatten

theorem modes_map (l : List (List (List Nat))) (f : Nat → Project.Mode) :
    Project.modes (l.map fun rank => rank.map fun slab => slab.map f) = l.flatten.flatten.map f := by
  unfold Project.modes
  rw [List.map_flatten, List.map_flatten]

theorem corr_congr (w : World) (V : ℚ) (c1 c2 d1 d2 : Nat → Cx) (h : ∀ m, power w V c1 c2 m = power w V d1 d2 m) (x : Nat) :
    corr w V c1 c2 x = corr w V d1 d2 x := by
  unfold corr
  simp only [h]

theorem stat_perm (w : World) (mc mc' : Machine) (hl : SameLayout mc mc') (V : ℚ) (c1 c2 d1 d2 : Nat → Cx)
    (h : ∀ m, power w V c1 c2 m = power w V d1 d2 m) (k : FftObj.Kind) :
    (Project.modes (stat w mc V c1 c2 k)).Perm (Project.modes (stat w mc' V d1 d2 k)) := by
  cases k with
  | power =>
    unfold stat
    rw [modes_map, modes_map]
    simp only [h]
    exact hl.modes.map _
  | corr =>
    unfold stat
    rw [modes_map, modes_map]
    simp only [corr_congr w V c1 c2 d1 d2 h]
    exact hl.cells.map _

/-- Either the bins have a width, or the values of k (r) are far enough apart for `_find_unique_edges` to tell them. -/
def BinsOk (w : World) (mc : Machine) (k : FftObj.Kind) (a : FftObj.Attrs) : Prop :=
  0 < a.dx ∨
    let x0 := FftObj.fundamental ⟨w.pi, w.root, fun _ _ _ _ => [], fun _ => none, fun _ => none⟩ k a.box a.nmesh
    let at' := match k with | .power => fun i => (w.mode i).x2 | .corr => fun i => (w.sep i).x2
    let l := match k with | .power => mc.modes.flatten.flatten | .corr => mc.cells.flatten.flatten
    0 < x0 ∧ (∀ i ∈ l, ∀ j ∈ l, at' i < at' j → (x0 / 20) ^ 2 ≤ at' j - at' i) ∧
      ∀ i ∈ l, ∀ j ∈ l, w.root (at' i) < w.root (at' j) → x0 / 100000 ≤ w.root (at' j) - w.root (at' i)

theorem mem_x2 (l : List (List (List Nat))) (f : Nat → Project.Mode) (q : ℚ) :
    q ∈ ((l.map fun rank => rank.map fun slab => slab.map f).map fun slabs => slabs.flatten.map fun m => m.x2).flatten ↔
      ∃ i ∈ l.flatten.flatten, (f i).x2 = q := by
  simp only [List.mem_flatten, List.mem_map, List.map_map, Function.comp_def]
  constructor
  · rintro ⟨_, ⟨rank, hr, rfl⟩, h⟩
    simp only [List.mem_map, List.mem_flatten] at h
    obtain ⟨m, ⟨_, ⟨slab, hs, rfl⟩, hm⟩, rfl⟩ := h
    obtain ⟨i, hi, rfl⟩ := List.mem_map.mp hm
    exact ⟨i, ⟨slab, ⟨rank, hr, hs⟩, hi⟩, rfl⟩
  · rintro ⟨i, ⟨slab, ⟨rank, hr, hs⟩, hi⟩, rfl⟩
    refine ⟨_, ⟨rank, hr, rfl⟩, ?_⟩
    simp only [List.mem_map, List.mem_flatten]
    exact ⟨f i, ⟨_, ⟨slab, hs, rfl⟩, List.mem_map.mpr ⟨i, hi, rfl⟩⟩, rfl⟩

theorem bins_same (w : World) (mc mc' : Machine) (hl : SameLayout mc mc') (V : ℚ) (s1 : Nat) (f1 f2 f1' f2' : Fld) (k : FftObj.Kind) (a : FftObj.Attrs)
    (hb : BinsOk w mc k a) :
    SameBins (envOf w mc V s1 f1 f2) (envOf w mc' V s1 f1' f2') k a (stat w mc V f1.coef f2.coef k) (stat w mc' V f1'.coef f2'.coef k) := by
  unfold SameBins FftObj.xBins
  have hf : ∀ f1 f2 mc, FftObj.fundamental (envOf w mc V s1 f1 f2) k a.box a.nmesh =
      FftObj.fundamental ⟨w.pi, w.root, fun _ _ _ _ => [], fun _ => none, fun _ => none⟩ k a.box a.nmesh := by
    intro f1 f2 mc; cases k <;> rfl
  have hm : ∀ f1 f2 mc, FftObj.xmaxDefault (envOf w mc V s1 f1 f2) k a.box a.nmesh a.dx =
      FftObj.xmaxDefault ⟨w.pi, w.root, fun _ _ _ _ => [], fun _ => none, fun _ => none⟩ k a.box a.nmesh a.dx := by
    intro f1 f2 mc; cases k <;> rfl
  simp only [hf, hm]
  by_cases hd : 0 < a.dx
  · rw [if_pos hd, if_pos hd]
  · rw [if_neg hd, if_neg hd]
    rcases hb with hb | ⟨h0, h1, h2⟩
    · exact absurd hb hd
    · generalize FftObj.fundamental ⟨w.pi, w.root, fun _ _ _ _ => [], fun _ => none, fun _ => none⟩ k a.box a.nmesh = x0 at h0 h1 h2 ⊢
      have r1 : (envOf w mc V s1 f1 f2).root = w.root := rfl
      have r2 : (envOf w mc' V s1 f1' f2').root = w.root := rfl
      rw [r1, r2]
      rw [Uedges.ranks_partial w.root x0 _ h0 ((stat w mc' V f1'.coef f2'.coef k).map fun slabs => slabs.flatten.map fun m => m.x2)
        ((stat w mc V f1.coef f2.coef k).map fun slabs => slabs.flatten.map fun m => m.x2)]
      · intro q
        cases k <;> unfold stat <;> rw [mem_x2, mem_x2]
        · simp only [hl.modes.mem_iff]
        · simp only [hl.cells.mem_iff]
      · intro x hx y hy hxy
        cases k <;> unfold stat at hx hy <;> rw [mem_x2] at hx hy <;> obtain ⟨i, hi, rfl⟩ := hx <;> obtain ⟨j, hj, rfl⟩ := hy
        · simpa [div_eq_mul_inv] using h1 i (hl.modes.mem_iff.mpr hi) j (hl.modes.mem_iff.mpr hj) hxy
        · simpa [div_eq_mul_inv] using h1 i (hl.cells.mem_iff.mpr hi) j (hl.cells.mem_iff.mpr hj) hxy
      · intro x hx y hy hxy
        cases k <;> unfold stat at hx hy <;> rw [mem_x2] at hx hy <;> obtain ⟨i, hi, rfl⟩ := hx <;> obtain ⟨j, hj, rfl⟩ := hy
        · simpa [div_eq_mul_inv] using h2 i (hl.modes.mem_iff.mpr hi) j (hl.modes.mem_iff.mpr hj) hxy
        · simpa [div_eq_mul_inv] using h2 i (hl.cells.mem_iff.mpr hi) j (hl.cells.mem_iff.mpr hj) hxy

/-- Fields related by `R`, source by source, or the same error. -/
def Related (w : World) (mc mc' : Machine) (R : Fld → Fld → Prop) : Prop :=
  ∀ V s, (∃ f f', compute w mc V (mc.content s) = .ok f ∧ compute w mc' V (mc'.content s) = .ok f' ∧ R f f') ∨
    ∃ e, compute w mc V (mc.content s) = .error e ∧ compute w mc' V (mc'.content s) = .error e

/-- Related fields have the same attributes and the same power. -/
def Powers (w : World) (R : Fld → Fld → Prop) : Prop :=
  ∀ f1 f1' f2 f2', R f1 f1' → R f2 f2' → f1.N = f1'.N ∧ f1.shot = f1'.shot ∧ ∀ V m, power w V f1.coef f2.coef m = power w V f1'.coef f2'.coef m

theorem ok_bind {ε α β : Type} (a : α) (f : α → Except ε β) : (Except.ok a : Except ε α).bind f = f a := rfl
theorem error_bind {ε α β : Type} (e : ε) (f : α → Except ε β) : (Except.error e : Except ε α).bind f = .error e := rfl

theorem run_fields (w : World) (mc mc' : Machine) (R : Fld → Fld → Prop) (hR : Powers w R) (hl : SameLayout mc mc') (k : FftObj.Kind)
    (a : FftObj.Attrs) (m1 m2 : FftObj.Mesh) (hb : BinsOk w mc k a) (f1 f1' f2 f2' : Fld) (h1 : R f1 f1') (h2 : R f2 f2') (V : ℚ) :
    FftObj.run (envOf w mc V m1.src f1 f2) k a m1 m2 = FftObj.run (envOf w mc' V m1.src f1' f2') k a m1 m2 := by
  obtain ⟨n1, n2, n3⟩ := hR _ _ _ _ h1 h2
  obtain ⟨p1, p2, -⟩ := hR _ _ _ _ h2 h1
  apply run_congr
  · intro s; simp only [envOf, n1, p1]
  · intro s; simp only [envOf, n2, p2]
  · exact stat_perm w mc mc' hl _ _ _ _ _ (n3 _) k
  · exact bins_same w mc mc' hl _ _ _ _ _ _ k a hb

theorem run_related (w : World) (mc mc' : Machine) (R : Fld → Fld → Prop) (hr : Related w mc mc' R) (hR : Powers w R) (hl : SameLayout mc mc')
    (k : FftObj.Kind) (a : FftObj.Attrs) (m1 m2 : FftObj.Mesh) (hb : BinsOk w mc k a) : run w mc k a m1 m2 = run w mc' k a m1 m2 := by
  unfold run
  by_cases hn : m1.nmesh ≠ m2.nmesh
  · rw [if_pos hn, if_pos hn]
  rw [if_neg hn, if_neg hn]
  rcases hr m1.box.prod m1.src with ⟨f, f', h1, h2, h3⟩ | ⟨e, h1, h2⟩
  · rw [h1, h2, ok_bind, ok_bind]
    unfold second
    by_cases hs : FftObj.isSame m1 m2
    · rw [if_pos hs, if_pos hs, ok_bind, ok_bind, run_fields w mc mc' R hR hl k a m1 m2 hb _ _ _ _ h3 h3]
    · rw [if_neg hs, if_neg hs]
      rcases hr m1.box.prod m2.src with ⟨f2, f2', g1, g2, g3⟩ | ⟨e, g1, g2⟩
      · rw [g1, g2, ok_bind, ok_bind, run_fields w mc mc' R hR hl k a m1 m2 hb _ _ _ _ h3 g3]
      · rw [g1, g2, error_bind, error_bind]
  · rw [h1, h2, error_bind, error_bind]

theorem call_related (w : World) (mc mc' : Machine) (R : Fld → Fld → Prop) (hr : Related w mc mc' R) (hR : Powers w R) (hl : SameLayout mc mc')
    (k : FftObj.Kind) (first : FftObj.Src) (sec : Option FftObj.Src) (g : FftObj.Args)
    (hb : ∀ c, checked w k first sec g = .ok c → BinsOk w mc k c.1) :
    call w mc k first sec g = call w mc' k first sec g := by
  unfold call
  cases hc : checked w k first sec g with
  | error e => simp only [liftObj, error_bind]
  | ok c => simp only [liftObj, ok_bind, run_related w mc mc' R hr hR hl k c.1 c.2.1 c.2.2 (hb c hc)]

theorem powers_eq (w : World) : Powers w Eq := by
  rintro f1 _ f2 _ rfl rfl
  exact ⟨rfl, rfl, fun _ _ => rfl⟩

/-! ## Ranks, chunks and decompositions -/

/-- The same particles, however distributed. -/
def SameContent : Content → Content → Prop
  | .particles c n s r, .particles c' n' s' r' => c = c' ∧ n = n' ∧ s = s' ∧ r.flatten.Perm r'.flatten
  | .cells n s f, .cells n' s' f' => n = n' ∧ s = s' ∧ f = f'
  | _, _ => False

/-- The chunk size is positive and there are at most twice as many ranks, so that painting cannot fail. -/
def Fits (mc : Machine) : Prop :=
  0 < mc.maxc ∧ ∀ s comp an as rows, mc.content s = .particles comp an as rows → rows.length ≤ 2 * mc.maxc

theorem selected_perm {r r' : List (List Paint.Row)} (h : r.flatten.Perm r'.flatten) : (Paint.selected r).Perm (Paint.selected r') := h.filter _

theorem compute_same (w : World) (hn : 0 < w.ncells) (mc mc' : Machine) (V : ℚ) (c c' : Content) (h : SameContent c c') (f f' : Fld)
    (h1 : compute w mc V c = .ok f) (h2 : compute w mc' V c' = .ok f') : f = f' := by
  cases c with
  | cells n s g =>
    cases c' with
    | cells n' s' g' => obtain ⟨rfl, rfl, rfl⟩ := h; cases h1; cases h2; rfl
    | particles c n s r => exact h.elim
  | particles cp n s r =>
    cases c' with
    | cells n' s' g' => exact h.elim
    | particles cp' n' s' r' =>
      obtain ⟨rfl, rfl, rfl, hp⟩ := h
      obtain ⟨a1, a2, a3⟩ := compute_direct w hn mc V cp n s r f h1
      obtain ⟨b1, b2, b3⟩ := compute_direct w hn mc' V cp n s r' f' h2
      have hs := selected_perm hp
      have hW : totalW r = totalW r' := (hs.map _).sum_eq
      have hW2 : totalW2 r = totalW2 r' := (hs.map _).sum_eq
      obtain ⟨fc, fn, fs⟩ := f
      obtain ⟨fc', fn', fs'⟩ := f'
      simp only at a1 a2 a3 b1 b2 b3
      rw [Fld.mk.injEq]
      refine ⟨?_, ?_, ?_⟩
      · funext m
        rw [a1, b1, hW, direct_perm w m hs]
      · rw [a2, b2, hs.length_eq]
      · rw [a3, b3, hW, hW2]

/-- C136: `FFTPower` and `FFTCorr` of catalogs and fields, auto or cross, give the same object (bins, columns, multipoles, attributes) or the same error
on any number of ranks, for any distribution of the rows, any domain decomposition, chunk size and layout of the mesh. -/
theorem call_ranks_partial (w : World) (hn : 0 < w.ncells) (mc mc' : Machine) (hl : SameLayout mc mc') (hc : ∀ s, SameContent (mc.content s) (mc'.content s))
    (hf : Fits mc) (hf' : Fits mc') (k : FftObj.Kind) (first : FftObj.Src) (sec : Option FftObj.Src) (g : FftObj.Args)
    (hb : ∀ c, checked w k first sec g = .ok c → BinsOk w mc k c.1) :
    call w mc k first sec g = call w mc' k first sec g := by
  refine call_related w mc mc' Eq ?_ (powers_eq w) hl k first sec g hb
  intro V s
  left
  obtain ⟨f, h1⟩ := compute_ok w mc V (mc.content s) hf.1 (hf.2 s)
  obtain ⟨f', h2⟩ := compute_ok w mc' V (mc'.content s) hf'.1 (hf'.2 s)
  exact ⟨f, f', h1, h2, compute_same w hn mc mc' V _ _ (hc s) f f' h1 h2⟩

/-- The bins are sound for every given positive width. -/
theorem bins_given (w : World) (mc : Machine) (k : FftObj.Kind) (first : FftObj.Src) (sec : Option FftObj.Src) (g : FftObj.Args) (d : ℚ) (hd : 0 < d)
    (hg : g.dx = some d) (c : FftObj.Attrs × FftObj.Mesh × FftObj.Mesh) (h : checked w k first sec g = .ok c) : BinsOk w mc k c.1 := by
  left
  unfold checked at h
  split at h
  · cases h
  · split at h
    · cases h
    · split at h
      · cases h
      · split at h
        · cases h
        · cases hb : FftObj.castBoth g.box g.nmesh first sec with
          | error e => rw [hb] at h; cases h
          | ok ms => rw [hb] at h; cases h; simpa [hg] using hd

/-- The arguments are checked before anything is painted, and if all is well the object is that of `Verif.FftObj` for the fields. -/
theorem call_new (w : World) (mc : Machine) (k : FftObj.Kind) (first : FftObj.Src) (sec : Option FftObj.Src) (g : FftObj.Args) (o : FftObj.Obj)
    (h : call w mc k first sec g = .ok o) :
    ∃ m1 m2 f1 f2, FftObj.castBoth g.box g.nmesh first sec = .ok (m1, m2) ∧ compute w mc m1.box.prod (mc.content m1.src) = .ok f1 ∧
      (if FftObj.isSame m1 m2 then f2 = f1 else compute w mc m1.box.prod (mc.content m2.src) = .ok f2) ∧
      FftObj.new (envOf w mc m1.box.prod m1.src f1 f2) k first sec g = .ok o := by
  unfold call at h
  cases hc : checked w k first sec g with
  | error e => rw [hc] at h; cases h
  | ok c =>
    obtain ⟨a, m1, m2⟩ := c
    rw [hc] at h
    simp only [liftObj, Except.bind] at h
    unfold run at h
    split at h
    · cases h
    cases h1 : compute w mc m1.box.prod (mc.content m1.src) with
    | error e => rw [h1] at h; cases h
    | ok f1 =>
      rw [h1] at h
      simp only [Except.bind] at h
      cases h2 : second w mc m1 m2 f1 with
      | error e => rw [h2] at h; cases h
      | ok f2 =>
        rw [h2] at h
        simp only at h
        cases h3 : FftObj.run (envOf w mc m1.box.prod m1.src f1 f2) k a m1 m2 with
        | error e => rw [h3] at h; cases h
        | ok o' =>
          rw [h3] at h
          cases h
          unfold checked at hc
          by_cases q1 : g.mode ≠ "1d" ∧ g.mode ≠ "2d"
          · rw [if_pos q1] at hc; cases hc
          rw [if_neg q1] at hc
          cases q2 : g.los with
          | none => rw [q2] at hc; cases hc
          | some los =>
            rw [q2] at hc
            simp only at hc
            by_cases q3 : los.length ≠ 3
            · rw [if_pos q3] at hc; cases hc
            rw [if_neg q3] at hc
            by_cases q4 : ¬ Binned.allclose (los.map (· ^ 2)).sum 1
            · rw [if_pos q4] at hc; cases hc
            rw [if_neg q4] at hc
            cases q5 : FftObj.castBoth g.box g.nmesh first sec with
            | error e => rw [q5] at hc; cases hc
            | ok ms =>
              rw [q5] at hc
              cases hc
              refine ⟨ms.1, ms.2, f1, f2, rfl, h1, ?_, ?_⟩
              · unfold second at h2
                split at h2
                · rename_i hs; rw [if_pos hs]; cases h2; rfl
                · rename_i hs; rw [if_neg hs]; exact h2
              · unfold FftObj.new
                rw [if_neg q1, q2]
                simp only
                rw [if_neg q3, if_neg q4, q5]
                exact h3

end NBK.Pipe
