import Verif.FofObj.Model
import Verif.Fof.MergeProps
import Verif.Fof.MassProps
import Verif.Fof.LabelsProps
import Verif.Gather.Props
import Mathlib.Algebra.BigOperators.Fin

/-!
# Properties of the object `FOF`
-/
set_option linter.unusedSimpArgs false
namespace NBK.FofObj
open NBK

/-! ## The statement -/

/-- Two particles are friends: their separation, or that of two of their images in a periodic box, is at most the linking length. -/
def Friends (ps : List Part) (ll : ℚ) (box : Option Vec) (p q : Nat) : Prop :=
  ∃ x y : Part, ps[p]? = some x ∧ ps[q]? = some y ∧ ∃ k : Fin 3 → ℤ,
    (x.pos 0 - y.pos 0 + k 0 * (box.elim 0 (· 0))) ^ 2 + (x.pos 1 - y.pos 1 + k 1 * (box.elim 0 (· 1))) ^ 2 +
      (x.pos 2 - y.pos 2 + k 2 * (box.elim 0 (· 2))) ^ 2 ≤ ll ^ 2

open Classical in
/-- The particles that a chain of friends connects with `p`. -/
noncomputable def component (link : Nat → Nat → Prop) (n p : Nat) : List Nat := (List.range n).filter fun q => decide (Relation.EqvGen link p q)

/-- The groups with more than `nmin` particles, the largest first. -/
structure Groups (link : Nat → Nat → Prop) (n nmin : Nat) (comps : List (List Nat)) : Prop where
  nodup : comps.Nodup
  mem : ∀ c, c ∈ comps ↔ ∃ p < n, c = component link n p ∧ nmin < c.length
  sorted : comps.Pairwise fun a b => b.length ≤ a.length

/-- The labels: 0 without a group, otherwise the position of the group in the list, from 1. -/
structure Labelled (labels : List (List Nat)) (ranks : List (List Part)) (comps : List (List Nat)) : Prop where
  sizes : labels.map List.length = ranks.map List.length
  group : ∀ (k : Nat) (c : List Nat), comps[k]? = some c → c = (List.range ranks.flatten.length).filter fun q => labels.flatten[q]? = some (k + 1)
  bound : ∀ v ∈ labels.flatten, v ≤ comps.length
  nonempty : ∀ c ∈ comps, c ≠ []

/-- The particles of a group. -/
def members (s : Source) (c : List Nat) : List Part := c.filterMap fun q => s.all[q]?

def mean (l : List ℚ) : ℚ := l.sum / l.length

/-! ## The linking length -/

/-- C110: the checks of `__init__`, in their order. -/
theorem checks (e : Env) (fuel : Nat) (s : Source) (g : Args) :
    ("Position" ∉ s.columns → new e fuel s g = some (.error .valueError)) ∧
    (g.periodic = true → s.attrs.get "BoxSize" = none → new e fuel s g = some (.error .valueError)) ∧
    ("Position" ∈ s.columns → g.periodic = false → g.absolute = false → s.attrs.get "Nmesh" = none → s.attrs.get "BoxSize" = none →
      new e fuel s g = some (.error .keyError)) ∧
    ("Position" ∈ s.columns → g.periodic = false → g.absolute = false → ∀ q, s.attrs.get "Nmesh" = some (.num q) → new e fuel s g = some (.error .typeError)) := by
  refine ⟨fun h => by simp [new, h], fun h1 h2 => ?_, fun h1 h2 h3 h4 h5 => ?_, fun h1 h2 h3 q h4 => ?_⟩
  · unfold new; split
    · rfl
    · rw [if_pos ⟨h1, h2⟩]
  · simp [new, h1, h2, linking, h3, ndim, h4, boxProd, h5, Except.bind]
  · simp [new, h1, h2, linking, h3, ndim, h4, Except.bind]

/-- C110: the linking length. With `absolute` it is the argument; otherwise, in `d` dimensions, its power `d` is that of the argument times the volume of the box
per particle. -/
theorem linking_spec (e : Env) (s : Source) (g : Args) (box : List ℚ) (hb : s.attrs.get "BoxSize" = some (.vec box)) (hn : s.attrs.get "Nmesh" = none) (h0 : s.all ≠ [])
    (hroot : (e.root (box.prod / s.all.length) 3) ^ 3 = box.prod / s.all.length) :
    ∃ ll, linking e s g = .ok ll ∧ (g.absolute = true → ll = g.linkingLength) ∧
      (g.absolute = false → ll ^ 3 = g.linkingLength ^ 3 * (box.prod / s.all.length)) := by
  have hl : s.all.length ≠ 0 := fun h => h0 (List.length_eq_zero_iff.mp h)
  unfold linking
  by_cases ha : g.absolute = true
  · exact ⟨_, by rw [if_pos ha], fun _ => rfl, fun h => by rw [ha] at h; cases h⟩
  · refine ⟨g.linkingLength * e.root (box.prod / s.all.length) 3, ?_, fun h => absurd h ha, fun _ => by rw [mul_pow, hroot]⟩
    rw [if_neg ha]
    simp [ndim, hn, boxProd, hb, Except.bind, hl]

/-- With a mesh size in the meta-data the number of its entries is the dimension, whatever the positions: the linking length is relative to that root of the
volume per object. -/
theorem linking_dim (e : Env) (s : Source) (g : Args) (box mesh : List ℚ) (hb : s.attrs.get "BoxSize" = some (.vec box))
    (hn : s.attrs.get "Nmesh" = some (.vec mesh)) (h0 : s.all ≠ []) (ha : g.absolute = false)
    (hroot : (e.root (box.prod / s.all.length) mesh.length) ^ mesh.length = box.prod / s.all.length) :
    ∃ ll, linking e s g = .ok ll ∧ ll ^ mesh.length = g.linkingLength ^ mesh.length * (box.prod / s.all.length) := by
  have hl : s.all.length ≠ 0 := fun h => h0 (List.length_eq_zero_iff.mp h)
  refine ⟨g.linkingLength * e.root (box.prod / s.all.length) mesh.length, ?_, by rw [mul_pow, hroot]⟩
  unfold linking
  rw [if_neg (by rw [ha]; decide)]
  simp [ndim, hn, boxProd, hb, Except.bind, hl]

/-- C110, negation: a box given as one number is a cube for the grouping, but for the mean separation its "volume" is the side: the same call with the box as a
number and as three equal numbers uses different linking lengths, unless the side is 1. -/
theorem scalar_box (e : Env) (s s' : Source) (g : Args) (L : ℚ) (hL : 0 < L) (h1 : L ≠ 1) (hb : s.attrs.get "BoxSize" = some (.num L))
    (hb' : s'.attrs.get "BoxSize" = some (.vec [L, L, L])) (hn : s.attrs.get "Nmesh" = none) (hn' : s'.attrs.get "Nmesh" = none) (hr : s'.ranks = s.ranks) (h0 : s.all ≠ [])
    (hroot : ∀ x y, 0 ≤ x → 0 ≤ y → e.root x 3 = e.root y 3 → x = y) (ha : g.absolute = false) (hg : g.linkingLength ≠ 0) :
    fofBox s g = fofBox s' g ∧ ∃ ll ll', linking e s g = .ok ll ∧ linking e s' g = .ok ll' ∧ ll ≠ ll' := by
  have hl : s.all.length ≠ 0 := fun h => h0 (List.length_eq_zero_iff.mp h)
  have hall : s'.all = s.all := by simp [Source.all, hr]
  constructor
  · simp only [fofBox, hb, hb']
    split
    · congr 2
      funext i
      match i with
      | 0 => rfl
      | 1 => rfl
      | 2 => rfl
    · rfl
  · refine ⟨g.linkingLength * e.root (L / s.all.length) 3, g.linkingLength * e.root ([L, L, L].prod / s.all.length) 3, ?_, ?_, ?_⟩
    · simp [linking, ha, ndim, hn, boxProd, hb, Except.bind, hl]
    · simp [linking, ha, ndim, hn', boxProd, hb', Except.bind, hl, hall]
    · intro he
      have hN : (0 : ℚ) < s.all.length := by exact_mod_cast Nat.pos_of_ne_zero hl
      have he' := mul_left_cancel₀ hg he
      have p1 : (0 : ℚ) ≤ L / s.all.length := by positivity
      have p2 : (0 : ℚ) ≤ [L, L, L].prod / s.all.length := by simp; positivity
      have : L / s.all.length = [L, L, L].prod / s.all.length := hroot _ _ p1 p2 he'
      rw [div_left_inj' (by positivity)] at this
      simp only [List.prod_cons, List.prod_nil, mul_one] at this
      have h3 : L * L = 1 := by
        have : L * (L * L) = L * 1 := by rw [mul_one]; exact this.symm
        exact mul_left_cancel₀ (ne_of_gt hL) this
      have h4 : (L - 1) * (L + 1) = 0 := by ring_nf; nlinarith
      rcases mul_eq_zero.mp h4 with h | h
      · exact h1 (by linarith)
      · linarith

/-! ## The labels -/

theorem component_self (link : Nat → Nat → Prop) (n p : Nat) (h : p < n) : p ∈ component link n p := by
  simp only [component, List.mem_filter, List.mem_range, decide_eq_true_eq]
  exact ⟨h, .refl p⟩

theorem component_congr (link : Nat → Nat → Prop) (n p q : Nat) (h : Relation.EqvGen link p q) : component link n p = component link n q := by
  unfold component
  apply List.filter_congr
  intro x _
  simp only [decide_eq_decide]
  exact ⟨fun k => (h.symm).trans _ _ _ k, fun k => h.trans _ _ _ k⟩

/-- C110: what `FOF` finds: the merging ends; the labels are those of the groups of friends with more than `nmin` particles, the largest first. -/
theorem labels_spec (e : Env) (hA : Fof.IsArgsort e.argsort) (hS : Fof.IsSort e.sort) (s : Source) (g : Args) (hne : s.ranks ≠ []) (hr : ∀ r ∈ s.ranks, r ≠ [])
    (hpos : "Position" ∈ s.columns) (ll : ℚ) (hll : linking e s g = .ok ll) (box : Option Vec) (hbox : fofBox s g = .ok box)
    (hd : Fof.Decomposed (Friends s.all ll box) (e.held s ll box g.domainFactor) (s.ranks.map List.length) (e.kd s ll box g.domainFactor)) :
    ∃ (fuel₀ : Nat) (o : Obj) (comps : List (List Nat)), (∀ fuel ≥ fuel₀, new e fuel s g = some (.ok o)) ∧ o.source = s ∧ o.periodic = g.periodic ∧
      o.attrs = attrsOf g ∧ Groups (Friends s.all ll box) s.all.length g.nmin comps ∧ Labelled o.labels s.ranks comps ∧
      o.maxLabel.length = s.ranks.length ∧
      ∀ (r : Nat) (l : List Nat) (m : Nat), o.labels[r]? = some l → o.maxLabel[r]? = some m → m ∈ l ∧ ∀ v ∈ l, v ≤ m := by
  obtain ⟨f₀, res, h1, h2, h3⟩ := Fof.fof_components _ e.argsort hA _ _ _ hd
  have hsum : (s.ranks.map List.length).sum = s.all.length := by simp [Source.all]
  rw [hsum] at h3
  have hlen : res.flatten.length = s.all.length := by rw [List.length_flatten, h2, hsum]
  have hres : res ≠ [] := by
    intro h; rw [h] at h2; exact hne (List.map_eq_nil_iff.mp h2.symm)
  have hresr : ∀ l ∈ res, l ≠ [] := by
    intro l hl h0
    obtain ⟨i, hi⟩ := List.mem_iff_getElem?.mp hl
    have : (res.map List.length)[i]? = some 0 := by rw [List.getElem?_map, hi, h0]; rfl
    rw [h2, List.getElem?_map, Option.map_eq_some_iff] at this
    obtain ⟨r, hr1, hr2⟩ := this
    exact hr r (List.mem_of_getElem? hr1) (List.length_eq_zero_iff.mp hr2)
  obtain ⟨lab, K, a1, a2, a3, a4, a5⟩ := Fof.assignLabels_partial e.sort hS e.argsort hA g.nmin res hres hresr
  -- the root of a particle
  have hroot : ∀ p < s.all.length, ∃ x, res.flatten[p]? = some x ∧ x ∈ res.flatten := by
    intro p hp
    obtain ⟨x, hx, _⟩ := h3 p hp
    exact ⟨x, hx, List.mem_of_getElem? hx⟩
  have hsame : ∀ p q x y, p < s.all.length → q < s.all.length → res.flatten[p]? = some x → res.flatten[q]? = some y →
      (x = y ↔ Relation.EqvGen (Friends s.all ll box) p q) := by
    intro p q x y hp hq hx hy
    have := Fof.fof_same_iff _ e.argsort hA _ _ _ hd f₀ res (h1 f₀ (le_refl _)) p q (by rw [hsum]; exact hp) (by rw [hsum]; exact hq)
    rw [hx, hy, Option.some.injEq] at this
    exact this
  have hcount : ∀ p x, p < s.all.length → res.flatten[p]? = some x → res.flatten.count x = (component (Friends s.all ll box) s.all.length p).length := by
    intro p x hp hx
    have e1 : res.flatten = (List.range s.all.length).map fun q => res.flatten.getD q 0 := by
      rw [← hlen]; exact (Fof.map_getD_range _).symm
    unfold component
    rw [← List.countP_eq_length_filter]
    conv_lhs => rw [e1]
    rw [List.count, List.countP_map]
    apply List.countP_congr
    intro q hq
    have hq' : q < s.all.length := List.mem_range.mp hq
    obtain ⟨y, hy, _⟩ := hroot q hq'
    simp only [Function.comp_apply, List.getD_eq_getElem?_getD, hy, Option.getD_some, beq_iff_eq, decide_eq_true_eq]
    rw [← hsame p q x y hp hq' hx hy]
    exact eq_comm
  obtain ⟨labels, hlab⟩ : ∃ labels, labels = res.map fun l => l.map lab := ⟨_, rfl⟩
  have hlf : labels.flatten = res.flatten.map lab := by rw [hlab, List.map_flatten]
  have hlsz : labels.map List.length = s.ranks.map List.length := by
    rw [← h2, hlab, List.map_map]; apply List.map_congr_left; intro l _; simp
  have hget : ∀ q < s.all.length, ∃ x, res.flatten[q]? = some x ∧ x ∈ res.flatten ∧ labels.flatten[q]? = some (lab x) := by
    intro q hq
    obtain ⟨x, hx, hm⟩ := hroot q hq
    exact ⟨x, hx, hm, by rw [hlf, List.getElem?_map, hx]; rfl⟩
  -- the group of a label
  have hgrp : ∀ k < K, ∃ p < s.all.length, (List.range s.all.length).filter (fun q => labels.flatten[q]? = some (k + 1)) =
      component (Friends s.all ll box) s.all.length p ∧ g.nmin < (component (Friends s.all ll box) s.all.length p).length ∧
      ∃ x, res.flatten[p]? = some x ∧ lab x = k + 1 := by
    intro k hk
    obtain ⟨x, hx, hx1, hx2⟩ := (a5 (k + 1)).mpr ⟨by omega, by omega⟩
    obtain ⟨p, hp⟩ := List.mem_iff_getElem?.mp hx
    have hp' : p < s.all.length := by rw [← hlen]; exact (List.getElem?_eq_some_iff.mp hp).1
    refine ⟨p, hp', ?_, ?_, x, hp, hx1⟩
    · unfold component
      apply List.filter_congr
      intro q hq
      have hq' : q < s.all.length := List.mem_range.mp hq
      obtain ⟨y, hy, hym, hyl⟩ := hget q hq'
      simp only [hyl, Option.some.injEq, decide_eq_decide]
      rw [← hsame p q x y hp' hq' hp hy]
      constructor
      · intro h
        exact a3 x hx y hym (by omega) (by omega)
      · rintro rfl; exact hx1
    · rw [← hcount p x hp' hp]
      by_contra hle
      have := (a2 x hx).mpr (by omega)
      omega
  obtain ⟨comps, hcomps⟩ : ∃ comps : List (List Nat), comps = (List.range K).map fun k => (List.range s.all.length).filter fun q => labels.flatten[q]? = some (k + 1) := ⟨_, rfl⟩
  have hcl : comps.length = K := by rw [hcomps]; simp
  have hck : ∀ (k : Nat) (c : List Nat), comps[k]? = some c ↔ k < K ∧ c = (List.range s.all.length).filter fun q => labels.flatten[q]? = some (k + 1) := by
    intro k c
    rw [hcomps, List.getElem?_map]
    by_cases hk : k < K
    · rw [List.getElem?_range hk]
      simp [hk, eq_comm]
    · rw [List.getElem?_eq_none (by simpa using hk)]
      simp [hk]
  have hmax : ∃ m, labels.mapM Fof.localMax = .ok m ∧ m.length = s.ranks.length ∧
      ∀ (r : Nat) (l : List Nat) (x : Nat), labels[r]? = some l → m[r]? = some x → x ∈ l ∧ ∀ v ∈ l, v ≤ x := by
    have hlr : ∀ l ∈ labels, l ≠ [] := by
      rw [hlab]; intro l hl h0
      obtain ⟨l', hl', rfl⟩ := List.mem_map.mp hl
      exact hresr l' hl' (List.map_eq_nil_iff.mp h0)
    refine ⟨labels.map fun l => (Fof.reduce max l).getD 0, ?_, ?_, ?_⟩
    · apply Fof.mapM_ok
      intro l hl
      obtain ⟨x, hx⟩ := Fof.reduce_isSome max l (hlr l hl)
      simp [Fof.localMax, hx]
    · simp [hlab]; simpa using congrArg List.length h2
    · intro r l x hl hx
      rw [List.getElem?_map, hl, Option.map_some, Option.some.injEq] at hx
      obtain ⟨y, hy⟩ := Fof.reduce_isSome max l (hlr l (List.mem_of_getElem? hl))
      rw [hy] at hx
      simp only [Option.getD_some] at hx
      subst hx
      exact Fof.reduce_max_spec l y hy
  obtain ⟨m, hm1, hm2, hm3⟩ := hmax
  refine ⟨f₀, ⟨s, g.periodic, attrsOf g, labels, m⟩, comps, ?_, rfl, rfl, rfl, ?_, ?_, hm2, hm3⟩
  · intro fuel hf
    unfold new
    rw [if_neg (by simpa using hpos), if_neg]
    · rw [hll]
      simp only [run, hbox, h1 fuel hf, Option.map_some, lift, Except.bind, a1, ← hlab, hm1]
    · rintro ⟨q1, q2⟩
      simp [fofBox, q1, q2] at hbox
  · refine ⟨?_, ?_, ?_⟩
    · rw [hcomps]
      refine (List.nodup_range).map_on ?_
      intro k hk k' hk' heq
      obtain ⟨p, hp, q1, q2, x, q3, q4⟩ := hgrp k (List.mem_range.mp hk)
      have hmem : p ∈ (List.range s.all.length).filter (fun q => labels.flatten[q]? = some (k + 1)) := by
        rw [q1]; exact component_self _ _ p hp
      have hmem' := hmem
      rw [heq] at hmem'
      simp only [List.mem_filter, decide_eq_true_eq] at hmem hmem'
      have := hmem.2.symm.trans hmem'.2
      simpa using this
    · intro c
      constructor
      · intro hc
        obtain ⟨k, hk⟩ := List.mem_iff_getElem?.mp hc
        obtain ⟨hk1, rfl⟩ := (hck k c).mp hk
        obtain ⟨p, hp, q1, q2, _⟩ := hgrp k hk1
        exact ⟨p, hp, q1, by rw [q1]; exact q2⟩
      · rintro ⟨p, hp, rfl, hlt⟩
        obtain ⟨x, hx, hxm, hxl⟩ := hget p hp
        have hx0 : lab x ≠ 0 := by
          intro h
          have := (a2 x hxm).mp h
          rw [hcount p x hp hx] at this
          omega
        obtain ⟨b1, b2⟩ := (a5 (lab x)).mp ⟨x, hxm, rfl, hx0⟩
        obtain ⟨p', hp', q1, q2, y, q3, q4⟩ := hgrp (lab x - 1) (by omega)
        have hyx : x = y := a3 x hxm y (List.mem_of_getElem? q3) hx0 (by omega)
        rw [component_congr _ _ p p' ((hsame p p' x y hp hp' hx q3).mp hyx), ← q1]
        exact List.mem_of_getElem? ((hck (lab x - 1) _).mpr ⟨by omega, rfl⟩)
    · rw [hcomps, List.pairwise_map]
      refine List.Pairwise.imp_of_mem ?_ (List.pairwise_lt_range (n := K))
      intro k k' hk hk' hlt
      obtain ⟨p, hp, q1, q2, x, q3, q4⟩ := hgrp k (List.mem_range.mp hk)
      obtain ⟨p', hp', q1', q2', x', q3', q4'⟩ := hgrp k' (List.mem_range.mp hk')
      rw [q1, q1', ← hcount p x hp q3, ← hcount p' x' hp' q3']
      exact a4 x (List.mem_of_getElem? q3) x' (List.mem_of_getElem? q3') (by omega) (by omega)
  · refine ⟨hlsz, ?_, ?_, ?_⟩
    · intro k c hc
      exact ((hck k c).mp hc).2
    · intro v hv
      rw [hcl]
      rw [hlf] at hv
      obtain ⟨x, hx, rfl⟩ := List.mem_map.mp hv
      by_cases h0 : lab x = 0
      · omega
      · exact ((a5 (lab x)).mp ⟨x, hx, rfl, h0⟩).2
    · intro c hc
      obtain ⟨k, hk⟩ := List.mem_iff_getElem?.mp hc
      obtain ⟨hk1, rfl⟩ := (hck k c).mp hk
      obtain ⟨p, hp, q1, q2, _⟩ := hgrp k hk1
      rw [q1]
      intro h
      rw [h] at q2
      simp at q2

/-! ## The groups -/

/-- The centre of some positions along an axis: their mean; in a period `L`, when they can be unwrapped to less than half of it, the mean of the unwrapped
positions brought back to `[0, L)`. -/
def IsCenter (box : Option ℚ) (xs : List ℚ) (c : Option ℚ) : Prop :=
  (box = none → c = some (mean xs)) ∧
  ∀ L, box = some L → ∀ shift : ℚ → ℤ, (∀ x ∈ xs, ∀ y ∈ xs, |(x + shift x * L) - (y + shift y * L)| < L / 2) →
    ∃ z, c = some z ∧ 0 ≤ z ∧ z < L ∧ ∃ j : ℤ, z = mean (xs.map fun x => x + shift x * L) + j * L

/-- The periods: none, or those of three numbers. -/
def IsBox (box : Option Val) (b : Fin 3 → Option ℚ) : Prop :=
  (box = none ∧ b = fun _ => none) ∨ ∃ x y z, box = some (.vec [x, y, z]) ∧ b = ![some x, some y, some z]

/-- The positions are in the box. -/
def Inside (b : Fin 3 → Option ℚ) (ps : List Part) (f : Part → Vec) : Prop := ∀ i L, b i = some L → ∀ p ∈ ps, 0 ≤ f p i ∧ f p i < L

theorem axis_spec (argsort : List Nat → List Nat) (hA : Fof.IsArgsort argsort) (D : List (List (Nat × ℚ))) (hne : D ≠ []) (hr : ∀ d ∈ D, d ≠ []) (b : Option ℚ)
    (hb : ∀ L, b = some L → ∀ p ∈ D.flatten, 0 ≤ p.2 ∧ p.2 < L) :
    ∃ r, Fof.centerOfMass argsort b D = .ok r ∧ ∀ v, Fof.group D v ≠ [] → IsCenter b (Fof.group D v) (r.getD v none) := by
  have hlt : ∀ v (n : Nat), (∀ p ∈ D.flatten, p.1 < n) → Fof.group D v ≠ [] → v < n := by
    intro v n h hg
    obtain ⟨x, hx⟩ := List.exists_mem_of_ne_nil _ hg
    obtain ⟨p, hp, rfl⟩ := List.mem_map.mp hx
    simp only [List.mem_filter, decide_eq_true_eq] at hp
    rw [← hp.2]; exact h p hp.1
  cases b with
  | none =>
    obtain ⟨r, h1, h2, h3⟩ := Fof.centerOfMass_mean argsort hA D hne hr
    refine ⟨r, h1, fun v hv => ⟨fun _ => ?_, fun L h => by cases h⟩⟩
    rw [List.getD_eq_getElem?_getD, h3 v (hlt v _ h2 hv), if_neg hv]
    rfl
  | some L =>
    obtain ⟨r, h1, h2, h3⟩ := Fof.centerOfMass_periodic argsort hA D hne hr L (hb L rfl)
    refine ⟨r, h1, fun v hv => ⟨fun h => by (cases h), ?_⟩⟩
    intro L' h shift hs
    cases h
    obtain ⟨c, e1, e2, e3, j, e4⟩ := (h3 v (hlt v _ h2 hv)).2 shift hs hv
    refine ⟨c, by rw [List.getD_eq_getElem?_getD, e1]; rfl, e2, e3, j, ?_⟩
    rw [e4]; simp [mean]

theorem paired_flatten {β : Type} (labels : List (List Nat)) (ranks : List (List Part)) (f : Part → β) (h : labels.map List.length = ranks.map List.length) :
    (paired labels ranks f).flatten = labels.flatten.zip (ranks.flatten.map f) := by
  unfold paired
  induction labels generalizing ranks with
  | nil => cases ranks with
    | nil => rfl
    | cons r rs => simp at h
  | cons l ls ih => cases ranks with
    | nil => simp at h
    | cons r rs =>
      simp only [List.map_cons, List.cons.injEq] at h
      simp only [List.zip_cons_cons, List.map_cons, List.flatten_cons, ih rs h.2, List.map_append]
      rw [List.zip_append (by simpa using h.1)]

theorem group_paired {β : Type} (labels : List (List Nat)) (ranks : List (List Part)) (f : Part → β) (h : labels.map List.length = ranks.map List.length) (v : Nat) :
    Fof.group (paired labels ranks f) v =
      (((List.range ranks.flatten.length).filter fun q => labels.flatten[q]? = some v).filterMap fun q => ranks.flatten[q]?).map f := by
  have hl : labels.flatten.length = ranks.flatten.length := by rw [List.length_flatten, List.length_flatten, h]
  unfold Fof.group
  rw [paired_flatten _ _ _ h, ← Fof.members_filter, List.map_fst_zip (by rw [List.length_map, hl]), List.map_snd_zip (by rw [List.length_map, hl]), Fof.members_map]
  unfold Fof.members
  rw [hl]

theorem paired_ne {β : Type} (labels : List (List Nat)) (ranks : List (List Part)) (f : Part → β) (h : labels.map List.length = ranks.map List.length)
    (hne : ranks ≠ []) (hr : ∀ r ∈ ranks, r ≠ []) : paired labels ranks f ≠ [] ∧ ∀ d ∈ paired labels ranks f, d ≠ [] := by
  have hl : labels.length = ranks.length := by simpa using congrArg List.length h
  constructor
  · intro h0
    have := congrArg List.length h0
    simp [paired, hl] at this
    exact hne this
  · intro d hd h0
    obtain ⟨⟨l, r⟩, hlr, rfl⟩ := List.mem_map.mp hd
    obtain ⟨i, hi⟩ := List.mem_iff_getElem?.mp hlr
    obtain ⟨i1, i2⟩ := List.getElem?_zip_eq_some.mp hi
    have : l.length = r.length := by
      have e1 : (labels.map List.length)[i]? = some l.length := by simp [i1]
      have e2 : (ranks.map List.length)[i]? = some r.length := by simp [i2]
      rw [h] at e1; rw [e1] at e2; exact Option.some.inj e2
    have := congrArg List.length h0
    simp [‹l.length = r.length›] at this
    exact hr r (List.mem_of_getElem? i2) this

theorem axis_paired (argsort : List Nat → List Nat) (hA : Fof.IsArgsort argsort) (s : Source) (labels : List (List Nat)) (h : labels.map List.length = s.ranks.map List.length)
    (hne : s.ranks ≠ []) (hr : ∀ r ∈ s.ranks, r ≠ []) (f : Part → ℚ) (b : Option ℚ) (hin : ∀ L, b = some L → ∀ p ∈ s.all, 0 ≤ f p ∧ f p < L) :
    ∃ r, Fof.centerOfMass argsort b (paired labels s.ranks f) = .ok r ∧ ∀ v c, c = ((List.range s.all.length).filter fun q => labels.flatten[q]? = some v) → c ≠ [] →
      IsCenter b ((members s c).map f) (r.getD v none) := by
  obtain ⟨p1, p2⟩ := paired_ne labels s.ranks f h hne hr
  obtain ⟨r, h1, h2⟩ := axis_spec argsort hA (paired labels s.ranks f) p1 p2 b (by
    intro L hL p hp
    rw [paired_flatten _ _ _ h] at hp
    obtain ⟨q, hq, e⟩ := List.mem_map.mp (List.of_mem_zip (a := p.1) (b := p.2) hp).2
    rw [← e]; exact hin L hL q hq)
  refine ⟨r, h1, fun v c hc hc0 => ?_⟩
  have hg := group_paired labels s.ranks f h v
  have e : Fof.group (paired labels s.ranks f) v = (members s c).map f := by rw [hg, hc]; rfl
  rw [← e]
  apply h2
  rw [e]
  obtain ⟨q, hq⟩ := List.exists_mem_of_ne_nil _ hc0
  have hq' : q < s.all.length := by rw [hc] at hq; simp at hq; exact hq.1
  intro h0
  have hm : s.all[q] ∈ members s c := List.mem_filterMap.mpr ⟨q, hq, List.getElem?_eq_getElem hq'⟩
  rw [List.map_eq_nil_iff.mp h0] at hm
  cases hm

theorem center_spec (argsort : List Nat → List Nat) (hA : Fof.IsArgsort argsort) (s : Source) (labels : List (List Nat)) (h : labels.map List.length = s.ranks.map List.length)
    (hne : s.ranks ≠ []) (hr : ∀ r ∈ s.ranks, r ≠ []) (f : Part → Vec) (box : Option Val) (b : Fin 3 → Option ℚ) (hb : IsBox box b) (hin : Inside b s.all f) :
    ∃ r, center argsort labels s.ranks f box = .ok r ∧ ∀ v c, c = ((List.range s.all.length).filter fun q => labels.flatten[q]? = some v) → c ≠ [] →
      ∀ i, IsCenter (b i) ((members s c).map (f · i)) (at' r v i) := by
  have hx := fun i => axis_paired argsort hA s labels h hne hr (f · i) (b i) (fun L hL p hp => hin i L hL p hp)
  obtain ⟨r0, h0, k0⟩ := hx 0
  obtain ⟨r1, h1, k1⟩ := hx 1
  obtain ⟨r2, h2, k2⟩ := hx 2
  refine ⟨![r0, r1, r2], ?_, fun v c hc hc0 i => ?_⟩
  · rcases hb with ⟨rfl, rfl⟩ | ⟨x, y, z, rfl, rfl⟩
    · simp only [center, h0, h1, h2, lift, Except.bind]
    · have a0 : (![some x, some y, some z] : Fin 3 → Option ℚ) 0 = some x := rfl
      have a1 : (![some x, some y, some z] : Fin 3 → Option ℚ) 1 = some y := rfl
      have a2 : (![some x, some y, some z] : Fin 3 → Option ℚ) 2 = some z := rfl
      simp only [center, h0, h1, h2, lift, Except.bind]
  · match i with
    | 0 => exact k0 v c hc hc0
    | 1 => exact k1 v c hc hc0
    | 2 => exact k2 v c hc hc0

/-- The particles of a group at the highest value of the column. -/
def peakOf (s : Source) (c : List Nat) : List Nat :=
  c.filter fun q => (members s c).all fun y => decide (y.peak ≤ (s.all[q]?.elim 0 Part.peak))

/-- What a row of the catalog says about the group `c`. -/
structure RowOf (s : Source) (b : Fin 3 → Option ℚ) (peakcolumn : Option String) (c : List Nat) (r : Row) : Prop where
  length : r.length = c.length
  pos : ∀ i, IsCenter (b i) ((members s c).map (·.pos i)) (r.cmPos i)
  vel : ∀ i, r.cmVel i = some (mean ((members s c).map (·.vel i)))
  noInit : r.init = none ↔ "InitialPosition" ∉ s.columns
  init : ∀ x, r.init = some x → ∀ i, IsCenter (b i) ((members s c).map (·.init i)) (x i)
  noPeak : (r.peakPos = none ↔ peakcolumn = none) ∧ (r.peakVel = none ↔ peakcolumn = none)
  peakPos : ∀ x, r.peakPos = some x → ∀ i, IsCenter (b i) ((members s (peakOf s c)).map (·.pos i)) (x i)
  peakVel : ∀ x, r.peakVel = some x → ∀ i, x i = some (mean ((members s (peakOf s c)).map (·.vel i)))

/-- The particles at the peak keep the label. -/
theorem peak_group (argsort : List Nat → List Nat) (hA : Fof.IsArgsort argsort) (s : Source) (labels : List (List Nat)) (h : labels.map List.length = s.ranks.map List.length)
    (hne : s.ranks ≠ []) (hr : ∀ r ∈ s.ranks, r ≠ []) :
    ∃ label1, Fof.peakLabels argsort (paired labels s.ranks Part.peak) = .ok label1 ∧ label1.map List.length = s.ranks.map List.length ∧
      ∀ k c, c = ((List.range s.all.length).filter fun q => labels.flatten[q]? = some (k + 1)) →
        peakOf s c = ((List.range s.all.length).filter fun q => label1.flatten[q]? = some (k + 1)) := by
  obtain ⟨p1, p2⟩ := paired_ne labels s.ranks Part.peak h hne hr
  obtain ⟨keep, h1, h2⟩ := Fof.peakLabels_spec argsort hA (paired labels s.ranks Part.peak) p1 p2
  have hl : labels.flatten.length = s.all.length := by rw [Source.all, List.length_flatten, List.length_flatten, h]
  have hsz : (paired labels s.ranks Part.peak).map List.length = s.ranks.map List.length := by
    unfold paired
    apply List.ext_getElem?
    intro i
    have hi : (labels.map List.length)[i]? = (s.ranks.map List.length)[i]? := by rw [h]
    simp only [List.getElem?_map] at hi ⊢
    cases e : s.ranks[i]? with
    | none => rw [e] at hi; simp at hi; simp [List.zip, List.getElem?_zipWith, e]
    | some r =>
      rw [e] at hi
      simp only [Option.map_some, Option.map_eq_some_iff] at hi
      obtain ⟨l, e1, e2⟩ := hi
      have : (labels.zip s.ranks)[i]? = some (l, r) := List.getElem?_zip_eq_some.mpr ⟨e1, e⟩
      simp [this, e2]
  refine ⟨_, h1, ?_, ?_⟩
  · rw [← hsz, List.map_map]; apply List.map_congr_left; intro d _; simp
  · intro k c hc
    have hfl := paired_flatten labels s.ranks Part.peak h
    rw [← List.map_flatten, hfl]
    unfold peakOf
    rw [hc, List.filter_filter]
    apply List.filter_congr
    intro q hq
    have hq' : q < s.all.length := List.mem_range.mp hq
    have hq'' : q < labels.flatten.length := by omega
    obtain ⟨x, hx⟩ : ∃ x, s.all[q]? = some x := ⟨_, List.getElem?_eq_getElem hq'⟩
    obtain ⟨v, hv⟩ : ∃ v, labels.flatten[q]? = some v := ⟨_, List.getElem?_eq_getElem hq''⟩
    have hz : (labels.flatten.zip (s.ranks.flatten.map Part.peak))[q]? = some (v, x.peak) :=
      List.getElem?_zip_eq_some.mpr ⟨hv, by rw [List.getElem?_map]; show (s.all[q]?).map _ = _; rw [hx]; rfl⟩
    have hmem : (v, x.peak) ∈ (paired labels s.ranks Part.peak).flatten := by rw [hfl]; exact List.mem_of_getElem? hz
    have hall : ∀ w : Nat, ∀ t : ℚ, (w, t) ∈ (paired labels s.ranks Part.peak).flatten ↔ ∃ q' y, q' < s.all.length ∧ labels.flatten[q']? = some w ∧ s.all[q']? = some y ∧ y.peak = t := by
      intro w t
      rw [hfl, List.mem_iff_getElem?]
      constructor
      · rintro ⟨i, hi⟩
        obtain ⟨i1, i2⟩ := List.getElem?_zip_eq_some.mp hi
        rw [List.getElem?_map, Option.map_eq_some_iff] at i2
        obtain ⟨y, y1, y2⟩ := i2
        exact ⟨i, y, (List.getElem?_eq_some_iff.mp y1).1, i1, y1, y2⟩
      · rintro ⟨q', y, _, e1, e2, e3⟩
        exact ⟨q', List.getElem?_zip_eq_some.mpr ⟨e1, by rw [List.getElem?_map]; show (s.all[q']?).map _ = _; rw [e2, ← e3]; rfl⟩⟩
    simp only [List.getElem?_map, hz, Option.map_some, Option.some.injEq, hv, hx, Option.elim_some]
    obtain ⟨m1, m2⟩ := h2 _ hmem
    rw [Bool.eq_iff_iff]
    simp only [Bool.and_eq_true, decide_eq_true_eq, List.all_eq_true]
    constructor
    · rintro ⟨a, rfl⟩
      refine m1 ?_
      rintro ⟨w, t⟩ hw rfl
      obtain ⟨q', y, e0, e1, e2, e3⟩ := (hall _ _).mp hw
      have := a y (List.mem_filterMap.mpr ⟨q', by simp only [List.mem_filter, List.mem_range, decide_eq_true_eq]; exact ⟨e0, e1⟩, e2⟩)
      rw [← e3]; exact this
    · intro a
      have hmax : ∀ y t, (y, t) ∈ (paired labels s.ranks Part.peak).flatten → y = v → t ≤ x.peak := by
        intro y t hy e
        by_contra hlt
        have := m2 ⟨_, hy, e, lt_of_not_ge hlt⟩
        omega
      have hvk : v = k + 1 := by
        rw [← a]; symm
        exact m1 (fun q hq e => hmax q.1 q.2 hq e)
      refine ⟨?_, hvk⟩
      intro y hy
      obtain ⟨q', e1, e2⟩ := List.mem_filterMap.mp hy
      simp only [List.mem_filter, List.mem_range, decide_eq_true_eq] at e1
      exact hmax (k + 1) y.peak ((hall _ _).mpr ⟨q', y, e1.1, e1.2, e2, rfl⟩) hvk.symm

theorem exists_top (l : List Part) (h : l ≠ []) : ∃ x ∈ l, ∀ y ∈ l, y.peak ≤ x.peak := by
  induction l with
  | nil => exact absurd rfl h
  | cons a l ih =>
    by_cases hl : l = []
    · subst hl; exact ⟨a, by simp, by simp⟩
    · obtain ⟨x, hx, hm⟩ := ih hl
      rcases le_total a.peak x.peak with h1 | h1
      · exact ⟨x, by simp [hx], by rintro y (_ | ⟨_, hy⟩); exacts [h1, hm y ‹_›]⟩
      · exact ⟨a, by simp, by rintro y (_ | ⟨_, hy⟩); exacts [le_refl _, le_trans (hm y ‹_›) h1]⟩

theorem peakOf_ne (s : Source) (c : List Nat) (h : c ≠ []) (hc : ∀ q ∈ c, q < s.all.length) : peakOf s c ≠ [] := by
  obtain ⟨q, hq⟩ := List.exists_mem_of_ne_nil _ h
  have hm : members s c ≠ [] := by
    intro h0
    have : s.all[q]'(hc q hq) ∈ members s c := List.mem_filterMap.mpr ⟨q, hq, List.getElem?_eq_getElem _⟩
    rw [h0] at this; cases this
  obtain ⟨x, hx, hmax⟩ := exists_top _ hm
  obtain ⟨q', h1, h2⟩ := List.mem_filterMap.mp hx
  intro h0
  have : q' ∈ peakOf s c := by
    unfold peakOf
    rw [List.mem_filter, List.all_eq_true]
    refine ⟨h1, fun y hy => ?_⟩
    rw [h2]; exact decide_eq_true (hmax y hy)
  rw [h0] at this; cases this

theorem row_zero (F : Nat → Row) (n : Nat) (h : (F 0).length = 0) (r : Row) (hr : ((List.range n).map F)[0]? = some r) : r.length = 0 := by
  rw [List.getElem?_map, Option.map_eq_some_iff] at hr
  obtain ⟨a, h1, rfl⟩ := hr
  obtain ⟨h2, h3⟩ := List.getElem?_eq_some_iff.mp h1
  simp only [List.getElem_range] at h3
  rw [← h3]; exact h

/-- C110: the catalog has an empty row for the particles without group, then a row for each group. -/
theorem catalog_spec (argsort : List Nat → List Nat) (hA : Fof.IsArgsort argsort) (s : Source) (labels : List (List Nat)) (comps : List (List Nat))
    (hne : s.ranks ≠ []) (hr : ∀ r ∈ s.ranks, r ≠ []) (hlab : Labelled labels s.ranks comps) (hpos : "Position" ∈ s.columns) (hvel : "Velocity" ∈ s.columns)
    (periodic : Bool) (b : Fin 3 → Option ℚ) (hb : IsBox (if periodic then s.attrs.get "BoxSize" else none) b) (hbx : periodic = true → s.attrs.get "BoxSize" ≠ none)
    (hin : Inside b s.all Part.pos) (hinit : "InitialPosition" ∈ s.columns → Inside b s.all Part.init) (peakcolumn : Option String)
    (hpk : ∀ c, peakcolumn = some c → c ∈ s.columns) :
    ∃ rows, catalog argsort s labels peakcolumn periodic = .ok rows ∧ rows.length = comps.length + 1 ∧ (∀ r, rows[0]? = some r → r.length = 0) ∧
      ∀ (k : Nat) (c : List Nat), comps[k]? = some c → ∃ r, rows[k + 1]? = some r ∧ RowOf s b peakcolumn c r := by
  have hsz := hlab.sizes
  have hlne : labels ≠ [] := by
    intro h; rw [h] at hsz; exact hne (List.map_eq_nil_iff.mp hsz.symm)
  have hlr : ∀ l ∈ labels, l ≠ [] := by
    intro l hl h0
    obtain ⟨i, hi⟩ := List.mem_iff_getElem?.mp hl
    have : (labels.map List.length)[i]? = some 0 := by rw [List.getElem?_map, hi, h0]; rfl
    rw [hsz, List.getElem?_map, Option.map_eq_some_iff] at this
    obtain ⟨r, hr1, hr2⟩ := this
    exact hr r (List.mem_of_getElem? hr1) (List.length_eq_zero_iff.mp hr2)
  have hl : labels.flatten.length = s.all.length := by rw [Source.all, List.length_flatten, List.length_flatten, hsz]
  obtain ⟨N, hN, n1, n2, n3⟩ := Fof.count_spec labels hlne hlr
  have hgrp : ∀ (k : Nat) (c : List Nat), comps[k]? = some c → c = ((List.range s.all.length).filter fun q => labels.flatten[q]? = some (k + 1)) ∧ c ≠ [] ∧
      (∀ q ∈ c, q < s.all.length) ∧ k + 1 < N.length := by
    intro k c hc
    have e := hlab.group k c hc
    have e0 := hlab.nonempty c (List.mem_of_getElem? hc)
    obtain ⟨q, hq⟩ := List.exists_mem_of_ne_nil _ e0
    refine ⟨e, e0, ?_, ?_⟩
    · intro q hq; rw [e] at hq; simp only [List.mem_filter, List.mem_range] at hq; exact hq.1
    · rw [e] at hq; simp only [List.mem_filter, decide_eq_true_eq] at hq
      exact n1 _ (List.mem_of_getElem? hq.2)
  have hNl : N.length = comps.length + 1 := by
    have u := hlab.bound _ n2
    have hpos : 0 < N.length := by
      have := List.length_pos_of_mem n2
      obtain ⟨a, ha⟩ := List.exists_mem_of_length_pos this
      have := n1 a ha
      omega
    by_cases h0 : comps.length = 0
    · omega
    · obtain ⟨c, hc⟩ : ∃ c, comps[comps.length - 1]? = some c := ⟨_, List.getElem?_eq_getElem (by omega)⟩
      have := (hgrp _ _ hc).2.2.2
      omega
  obtain ⟨hp, hp1, hp2⟩ := center_spec argsort hA s labels hsz hne hr Part.pos _ b hb hin
  have nobox : IsBox none (fun _ => none) := .inl ⟨rfl, rfl⟩
  obtain ⟨hv, hv1, hv2⟩ := center_spec argsort hA s labels hsz hne hr Part.vel none _ nobox (by intro i L h; cases h)
  obtain ⟨hi, hi1, hi2, hi3⟩ : ∃ hi : Option (Fin 3 → List (Option ℚ)),
      (if "InitialPosition" ∈ s.columns then (center argsort labels s.ranks Part.init (if periodic then s.attrs.get "BoxSize" else none)).map some else .ok none) = .ok hi ∧
      (hi = none ↔ "InitialPosition" ∉ s.columns) ∧
      ∀ x, hi = some x → ∀ v c, c = ((List.range s.all.length).filter fun q => labels.flatten[q]? = some v) → c ≠ [] →
        ∀ i, IsCenter (b i) ((members s c).map (·.init i)) (at' x v i) := by
    by_cases h : "InitialPosition" ∈ s.columns
    · obtain ⟨x, x1, x2⟩ := center_spec argsort hA s labels hsz hne hr Part.init _ b hb (hinit h)
      refine ⟨some x, by rw [if_pos h, x1]; rfl, by simp [h], ?_⟩
      intro y hy; cases hy; exact x2
    · exact ⟨none, by rw [if_neg h], by simp [h], by intro x hx; cases hx⟩
  obtain ⟨pk, pk1, pk2, pk3⟩ : ∃ pk, peaks argsort s labels peakcolumn (if periodic then s.attrs.get "BoxSize" else none) = .ok pk ∧ (pk = none ↔ peakcolumn = none) ∧
      ∀ x, pk = some x → ∀ k c, c = ((List.range s.all.length).filter fun q => labels.flatten[q]? = some (k + 1)) → c ≠ [] → (∀ q ∈ c, q < s.all.length) →
        ∀ i, IsCenter (b i) ((members s (peakOf s c)).map (·.pos i)) (at' x.1 (k + 1) i) ∧ at' x.2 (k + 1) i = some (mean ((members s (peakOf s c)).map (·.vel i))) := by
    cases peakcolumn with
    | none => exact ⟨none, rfl, by simp, by intro x hx; cases hx⟩
    | some cn =>
      obtain ⟨l1, a1, a2, a3⟩ := peak_group argsort hA s labels hsz hne hr
      obtain ⟨x, x1, x2⟩ := center_spec argsort hA s l1 a2 hne hr Part.pos _ b hb hin
      obtain ⟨y, y1, y2⟩ := center_spec argsort hA s l1 a2 hne hr Part.vel none _ nobox (by intro i L h; cases h)
      refine ⟨some (x, y), ?_, by simp, ?_⟩
      · simp only [peaks, if_neg (not_not.mpr (hpk cn rfl)), a1, lift, Except.bind, x1, y1, Except.map]
      · intro z hz k c hc hc0 hc1 i
        cases hz
        have hp0 := peakOf_ne s c hc0 hc1
        exact ⟨x2 (k + 1) (peakOf s c) (a3 k c hc) hp0 i, (y2 (k + 1) (peakOf s c) (a3 k c hc) hp0 i).1 rfl⟩
  refine ⟨(List.range N.length).map fun v =>
      ⟨at' hp v, at' hv v, if v = 0 then 0 else N.getD v 0, hi.map (at' · v), pk.map fun p => at' p.1 v, pk.map fun p => at' p.2 v⟩, ?_, ?_, ?_, ?_⟩
  · unfold catalog
    rw [if_neg (by simp [hpos, hvel]), hN]
    simp only [lift, Except.bind]
    rw [if_neg (by rintro ⟨q1, q2⟩; exact hbx q1 q2), hp1]
    simp only [hv1, hi1, pk1]
  · simp [hNl]
  · intro r
    exact row_zero _ _ rfl r
  · intro k c hc
    obtain ⟨e, e0, e1, e2⟩ := hgrp k c hc
    refine ⟨_, by rw [List.getElem?_map, List.getElem?_range e2]; rfl, ?_⟩
    refine ⟨?_, hp2 _ _ e e0, fun i => (hv2 _ _ e e0 i).1 rfl, ?_, ?_, ⟨?_, ?_⟩, ?_, ?_⟩
    · have hk : k + 1 ≠ 0 := by omega
      simp only [hk, if_false, List.getD_eq_getElem?_getD, n3 _ e2, Option.getD_some]
      have e3 : labels.flatten = (List.range s.all.length).map fun q => labels.flatten.getD q 0 := by
        rw [← hl]; exact (Fof.map_getD_range _).symm
      rw [e, ← List.countP_eq_length_filter]
      conv_lhs => rw [e3]
      rw [List.count, List.countP_map]
      apply List.countP_congr
      intro q hq
      have hq' : q < labels.flatten.length := by rw [hl]; exact List.mem_range.mp hq
      simp only [Function.comp_apply, List.getD_eq_getElem?_getD, List.getElem?_eq_getElem hq', Option.getD_some, beq_iff_eq, decide_eq_true_eq, Option.some.injEq]
    · simpa using hi2
    · intro x hx i
      simp only [Option.map_eq_some_iff] at hx
      obtain ⟨y, rfl, rfl⟩ := hx
      exact hi3 y rfl _ _ e e0 i
    · simpa using pk2
    · simpa using pk2
    · intro x hx i
      simp only [Option.map_eq_some_iff] at hx
      obtain ⟨y, rfl, rfl⟩ := hx
      exact (pk3 y rfl k c e e0 e1 i).1
    · intro x hx i
      simp only [Option.map_eq_some_iff] at hx
      obtain ⟨y, rfl, rfl⟩ := hx
      exact (pk3 y rfl k c e e0 e1 i).2

theorem scatter_spec {β : Type} (P : Nat) (hP : 0 < P) (l : List β) :
    (scatter P l).flatten = l ∧ (scatter P l).length = P ∧ ∀ a ∈ scatter P l, ∀ c ∈ scatter P l, a.length ≤ c.length + 1 := by
  have hs : l.length = ((List.range P).map (Gather.newlength l.length P)).sum := (Gather.newlength_sum _ _ hP).symm
  refine ⟨Fof.cut_flatten _ _ hs, ?_, ?_⟩
  · have := congrArg List.length (Fof.cut_map_length _ _ hs)
    simpa [scatter] using this
  · intro a ha c hc
    have hm := Fof.cut_map_length _ _ hs
    have hx : ∀ x ∈ scatter P l, ∃ r, x.length = Gather.newlength l.length P r := by
      intro x hx
      have : x.length ∈ (scatter P l).map List.length := List.mem_map_of_mem hx
      unfold scatter at this
      rw [hm] at this
      obtain ⟨r, _, e⟩ := List.mem_map.mp this
      exact ⟨r, e.symm⟩
    obtain ⟨r, e1⟩ := hx a ha
    obtain ⟨r', e2⟩ := hx c hc
    rw [e1, e2]
    unfold Gather.newlength
    generalize l.length / P = w
    split <;> split <;> omega

/-- C110: `find_features`: the rows spread evenly over the ranks; `attrs` are those of the source, with those of `FOF` on top. -/
theorem features_spec (e : Env) (hA : Fof.IsArgsort e.argsort) (o : Obj) (comps : List (List Nat)) (hne : o.source.ranks ≠ []) (hr : ∀ r ∈ o.source.ranks, r ≠ [])
    (hlab : Labelled o.labels o.source.ranks comps) (hpos : "Position" ∈ o.source.columns) (hvel : "Velocity" ∈ o.source.columns)
    (b : Fin 3 → Option ℚ) (hb : IsBox (if o.periodic then o.source.attrs.get "BoxSize" else none) b) (hbx : o.periodic = true → o.source.attrs.get "BoxSize" ≠ none)
    (hin : Inside b o.source.all Part.pos) (hinit : "InitialPosition" ∈ o.source.columns → Inside b o.source.all Part.init) (peakcolumn : Option String)
    (hpk : ∀ c, peakcolumn = some c → c ∈ o.source.columns) :
    ∃ rows, findFeatures e o peakcolumn = .ok (rows, o.source.attrs.update o.attrs) ∧ rows.length = o.source.ranks.length ∧
      (∀ a ∈ rows, ∀ c ∈ rows, a.length ≤ c.length + 1) ∧ rows.flatten.length = comps.length + 1 ∧ (∀ r, rows.flatten[0]? = some r → r.length = 0) ∧
      ∀ (k : Nat) (c : List Nat), comps[k]? = some c → ∃ r, rows.flatten[k + 1]? = some r ∧ RowOf o.source b peakcolumn c r := by
  obtain ⟨rows, h1, h2, h3, h4⟩ := catalog_spec e.argsort hA o.source o.labels comps hne hr hlab hpos hvel o.periodic b hb hbx hin hinit peakcolumn hpk
  obtain ⟨s1, s2, s3⟩ := scatter_spec o.source.ranks.length (List.length_pos_of_ne_nil hne) rows
  refine ⟨scatter o.source.ranks.length rows, ?_, s2, s3, ?_, ?_, ?_⟩
  · unfold findFeatures; rw [h1]; rfl
  · rw [s1, h2]
  · rw [s1]; exact h3
  · rw [s1]; exact h4

/-- What a halo says about the group `c`: the mass is that of its particles; position and velocity are means over the group, or over its particles at the peak. -/
structure HaloOf (s : Source) (b : Fin 3 → Option ℚ) (posdef : String) (mass : ℚ) (c : List Nat) (h : Halo) : Prop where
  mass : h.mass = mass * c.length
  pos : ∀ i, IsCenter (b i) ((members s (if posdef = "cm" then c else peakOf s c)).map (·.pos i)) (h.pos i)
  vel : ∀ i, h.vel i = some (mean ((members s (if posdef = "cm" then c else peakOf s c)).map (·.vel i)))

theorem flatten_filterMap {α β : Type} (f : α → Option β) (p : α → Bool) (L : List (List α)) :
    (L.map fun r => (r.filter p).filterMap f).flatten = (L.flatten.filter p).filterMap f := by
  induction L with
  | nil => rfl
  | cons a L ih => simp [ih]

/-- C110: `to_halos`: a halo for each group. -/
theorem halos_spec (e : Env) (hA : Fof.IsArgsort e.argsort) (o : Obj) (comps : List (List Nat)) (hne : o.source.ranks ≠ []) (hr : ∀ r ∈ o.source.ranks, r ≠ [])
    (hlab : Labelled o.labels o.source.ranks comps) (hpos : "Position" ∈ o.source.columns) (hvel : "Velocity" ∈ o.source.columns)
    (b : Fin 3 → Option ℚ) (hb : IsBox (if o.periodic then o.source.attrs.get "BoxSize" else none) b) (hbx : o.periodic = true → o.source.attrs.get "BoxSize" ≠ none)
    (hin : Inside b o.source.all Part.pos) (hinit : "InitialPosition" ∈ o.source.columns → Inside b o.source.all Part.init) (posdef : String) (hpd : posdef = "cm" ∨ posdef = "peak")
    (peakcolumn : String) (hpk : posdef = "peak" → peakcolumn ∈ o.source.columns) (mass redshift : ℚ) (mdef : String) :
    ∃ halos attrs, toHalos e o mass redshift mdef posdef peakcolumn = .ok (halos, attrs) ∧ halos.length = o.source.ranks.length ∧ halos.flatten.length = comps.length ∧
      ∀ (k : Nat) (c : List Nat), comps[k]? = some c → ∃ h, halos.flatten[k]? = some h ∧ HaloOf o.source b posdef mass c h := by
  obtain ⟨rows, h1, h2, h3, h4⟩ := catalog_spec e.argsort hA o.source o.labels comps hne hr hlab hpos hvel o.periodic b hb hbx hin hinit
    (if posdef = "cm" then none else some peakcolumn) (by
      intro c hc
      rcases hpd with rfl | rfl
      · simp at hc
      · simp at hc; rw [← hc]; exact hpk rfl)
  obtain ⟨s1, s2, -⟩ := scatter_spec o.source.ranks.length (List.length_pos_of_ne_nil hne) rows
  -- the rows are the empty one and those of the groups
  obtain ⟨r0, tl, rfl⟩ : ∃ r0 tl, rows = r0 :: tl := by
    cases rows with
    | nil => simp at h2
    | cons a l => exact ⟨a, l, rfl⟩
  have htl : tl.length = comps.length := by simpa using h2
  have h0 : r0.length = 0 := h3 r0 rfl
  have hrow : ∀ (k : Nat) (r : Row), tl[k]? = some r → ∃ c, comps[k]? = some c ∧ RowOf o.source b (if posdef = "cm" then none else some peakcolumn) c r := by
    intro k r hk
    have hlt : k < comps.length := by rw [← htl]; exact (List.getElem?_eq_some_iff.mp hk).1
    obtain ⟨r', e1, e2⟩ := h4 k _ (List.getElem?_eq_getElem hlt)
    refine ⟨_, List.getElem?_eq_getElem hlt, ?_⟩
    rw [List.getElem?_cons_succ, hk] at e1
    cases e1; exact e2
  have hposl : ∀ r ∈ tl, 0 < r.length := by
    intro r hr'
    obtain ⟨k, hk⟩ := List.mem_iff_getElem?.mp hr'
    obtain ⟨c, e1, e2⟩ := hrow k r hk
    rw [e2.length]
    exact List.length_pos_of_ne_nil (hlab.nonempty c (List.mem_of_getElem? e1))
  have hhalo : ∀ r ∈ tl, ∃ h, r.halo posdef mass = some h := by
    intro r hr'
    obtain ⟨k, hk⟩ := List.mem_iff_getElem?.mp hr'
    obtain ⟨c, e1, e2⟩ := hrow k r hk
    unfold Row.halo
    by_cases hcm : posdef = "cm"
    · exact ⟨_, by rw [if_pos hcm]⟩
    · rw [if_neg hcm]
      obtain ⟨n1, n2⟩ := e2.noPeak
      rw [if_neg hcm] at n1 n2
      cases e3 : r.peakPos with
      | none => exact absurd (n1.mp e3) (by simp)
      | some x => cases e4 : r.peakVel with
        | none => exact absurd (n2.mp e4) (by simp)
        | some y => exact ⟨_, rfl⟩
  have hfil : (r0 :: tl).filter (fun x => decide (0 < x.length)) = tl := by
    rw [List.filter_cons_of_neg (by simp [h0]), List.filter_eq_self]
    intro r hr'; simpa using hposl r hr'
  obtain ⟨hs, hhs⟩ : ∃ hs : List Halo, tl.map (fun x => x.halo posdef mass) = hs.map some := by
    clear hfil h1 h2 h3 h4 s1 s2 htl hrow hposl
    induction tl with
    | nil => exact ⟨[], rfl⟩
    | cons a l ih =>
      obtain ⟨hs, h⟩ := ih (fun r hr => hhalo r (by simp [hr]))
      obtain ⟨x, hx⟩ := hhalo a (by simp)
      exact ⟨x :: hs, by simp [h, hx]⟩
  have hfm : tl.filterMap (fun x => x.halo posdef mass) = hs := by
    have : tl.filterMap (fun x => x.halo posdef mass) = (tl.map (fun x => x.halo posdef mass)).filterMap id := by rw [List.filterMap_map]; rfl
    rw [this, hhs, List.filterMap_map]; simp
  obtain ⟨at1, hat⟩ : ∃ at1, toHalos e o mass redshift mdef posdef peakcolumn = .ok
      ((scatter o.source.ranks.length (r0 :: tl)).map fun r => (r.filter fun x => decide (0 < x.length)).filterMap fun x => x.halo posdef mass, at1) := by
    unfold toHalos
    rw [if_neg (by rcases hpd with rfl | rfl <;> simp), h1]
    exact ⟨_, rfl⟩
  refine ⟨_, at1, hat, ?_, ?_, ?_⟩
  · simp [s2]
  · rw [flatten_filterMap, s1, hfil, hfm]
    have := congrArg List.length hhs
    simp at this; omega
  · intro k c hc
    rw [flatten_filterMap, s1, hfil, hfm]
    have hlt : k < tl.length := by rw [htl]; exact (List.getElem?_eq_some_iff.mp hc).1
    obtain ⟨r, hr'⟩ : ∃ r, tl[k]? = some r := ⟨_, List.getElem?_eq_getElem hlt⟩
    obtain ⟨c', e1, e2⟩ := hrow k r hr'
    rw [hc] at e1; cases e1
    have hk : (tl.map (fun x => x.halo posdef mass))[k]? = some (r.halo posdef mass) := by rw [List.getElem?_map, hr']; rfl
    rw [hhs, List.getElem?_map, Option.map_eq_some_iff] at hk
    obtain ⟨h, q1, q2⟩ := hk
    refine ⟨h, q1, ?_⟩
    unfold Row.halo at q2
    by_cases hcm : posdef = "cm"
    · rw [if_pos hcm] at q2
      cases q2
      exact ⟨by rw [← e2.length], by rw [if_pos hcm]; exact e2.pos, by rw [if_pos hcm]; exact e2.vel⟩
    · rw [if_neg hcm] at q2
      cases e3 : r.peakPos with
      | none => rw [e3] at q2; simp at q2
      | some x => cases e4 : r.peakVel with
        | none => rw [e3, e4] at q2; simp at q2
        | some y =>
          rw [e3, e4] at q2
          cases q2
          exact ⟨by rw [← e2.length], by rw [if_neg hcm]; exact e2.peakPos x e3, by rw [if_neg hcm]; exact e2.peakVel y e4⟩

/-- **C110**: from the particles to the halos: the groups of friends with more than `nmin` particles, the largest first, each a halo with the mass of its particles,
their mean velocity, and their (periodic) mean position. -/
theorem fof_halos (e : Env) (hA : Fof.IsArgsort e.argsort) (hS : Fof.IsSort e.sort) (s : Source) (g : Args) (hne : s.ranks ≠ []) (hr : ∀ r ∈ s.ranks, r ≠ [])
    (hpos : "Position" ∈ s.columns) (hvel : "Velocity" ∈ s.columns) (ll : ℚ) (hll : linking e s g = .ok ll)
    (box : Option (ℚ × ℚ × ℚ)) (hbox : (g.periodic = false ∧ box = none) ∨ ∃ x y z, g.periodic = true ∧ s.attrs.get "BoxSize" = some (.vec [x, y, z]) ∧ box = some (x, y, z))
    (hin : ∀ x y z, box = some (x, y, z) → ∀ p ∈ s.all, (0 ≤ p.pos 0 ∧ p.pos 0 < x) ∧ (0 ≤ p.pos 1 ∧ p.pos 1 < y) ∧ (0 ≤ p.pos 2 ∧ p.pos 2 < z))
    (hno : "InitialPosition" ∉ s.columns)
    (hd : Fof.Decomposed (Friends s.all ll (box.map fun t => ![t.1, t.2.1, t.2.2])) (e.held s ll (box.map fun t => ![t.1, t.2.1, t.2.2]) g.domainFactor) (s.ranks.map List.length)
      (e.kd s ll (box.map fun t => ![t.1, t.2.1, t.2.2]) g.domainFactor))
    (posdef : String) (hpd : posdef = "cm" ∨ posdef = "peak") (peakcolumn : String) (hpk : posdef = "peak" → peakcolumn ∈ s.columns) (mass redshift : ℚ) (mdef : String) :
    ∃ (fuel₀ : Nat) (o : Obj) (comps : List (List Nat)) (halos : List (List Halo)) (attrs : Dict), (∀ fuel ≥ fuel₀, new e fuel s g = some (.ok o)) ∧
      Groups (Friends s.all ll (box.map fun t => ![t.1, t.2.1, t.2.2])) s.all.length g.nmin comps ∧
      toHalos e o mass redshift mdef posdef peakcolumn = .ok (halos, attrs) ∧ halos.flatten.length = comps.length ∧
      ∀ (k : Nat) (c : List Nat), comps[k]? = some c →
        ∃ h, halos.flatten[k]? = some h ∧ HaloOf s (fun i => box.map fun t => ![t.1, t.2.1, t.2.2] i) posdef mass c h := by
  have hfb : fofBox s g = .ok (box.map fun t => ![t.1, t.2.1, t.2.2]) := by
    rcases hbox with ⟨h1, rfl⟩ | ⟨x, y, z, h1, h2, rfl⟩
    · simp [fofBox, h1]
    · simp [fofBox, h1, h2]
  obtain ⟨f0, o, comps, a1, a2, a3, a4, a5, a6, -⟩ := labels_spec e hA hS s g hne hr hpos ll hll _ hfb hd
  have hb : IsBox (if o.periodic then o.source.attrs.get "BoxSize" else none) (fun i => box.map fun t => ![t.1, t.2.1, t.2.2] i) := by
    rw [a2, a3]
    rcases hbox with ⟨h1, rfl⟩ | ⟨x, y, z, h1, h2, rfl⟩
    · left; simp [h1]
    · right; refine ⟨x, y, z, by simp [h1, h2], ?_⟩
      funext i
      match i with
      | 0 => rfl
      | 1 => rfl
      | 2 => rfl
  obtain ⟨halos, attrs, b1, b2, b3, b4⟩ := halos_spec e hA o comps (by rw [a2]; exact hne) (by rw [a2]; exact hr) (by rw [a2]; exact a6) (by rw [a2]; exact hpos)
    (by rw [a2]; exact hvel) _ hb (by
      rw [a2, a3]; intro h h'
      rcases hbox with ⟨h1, _⟩ | ⟨x, y, z, _, h2, _⟩
      · rw [h] at h1; cases h1
      · rw [h'] at h2; cases h2) (by
      rw [a2]; intro i L hL p hp
      obtain ⟨⟨x, y, z⟩, rfl, e1⟩ := Option.map_eq_some_iff.mp hL
      obtain ⟨c0, c1, c2⟩ := hin x y z rfl p hp
      match i, e1 with
      | 0, rfl => exact c0
      | 1, rfl => exact c1
      | 2, rfl => exact c2) (by rw [a2]; exact fun h => absurd h hno) posdef hpd peakcolumn (by rw [a2]; exact hpk) mass redshift mdef
  rw [a2] at b4
  exact ⟨f0, o, comps, halos, attrs, a1, a5, b1, b3, b4⟩

/-! ## Errors and attributes -/

/-- C110: the errors of `find_features` and `to_halos`. The last one is a box given as one number, which `FOF` itself accepts. -/
theorem features_errors (e : Env) (o : Obj) (mass redshift : ℚ) (mdef posdef peakcolumn : String) (pk : Option String) :
    ("Velocity" ∉ o.source.columns → findFeatures e o pk = .error .valueError) ∧
    (posdef ≠ "cm" → posdef ≠ "peak" → toHalos e o mass redshift mdef posdef peakcolumn = .error .assertionError) ∧
    (∀ c, c ∉ o.source.columns → ∀ r, findFeatures e o (some c) ≠ .ok r) ∧
    ([] ∈ o.labels → "Position" ∈ o.source.columns → "Velocity" ∈ o.source.columns → findFeatures e o pk = .error .valueError) ∧
    (∀ L, o.periodic = true → o.source.attrs.get "BoxSize" = some (.num L) → "Position" ∈ o.source.columns → "Velocity" ∈ o.source.columns → o.labels ≠ [] →
      (∀ l ∈ o.labels, l ≠ []) → findFeatures e o pk = .error .typeError ∧
        (posdef = "cm" ∨ posdef = "peak" → toHalos e o mass redshift mdef posdef peakcolumn = .error .typeError)) := by
  refine ⟨fun h => by simp [findFeatures, catalog, h, Except.map], fun h1 h2 => by simp [toHalos, h1, h2], ?_, ?_, ?_⟩
  · intro c hc r h
    have key : ∀ box, peaks e.argsort o.source o.labels (some c) box = .error .assertionError := by intro box; simp [peaks, hc]
    unfold findFeatures catalog at h
    simp only [key] at h
    split at h
    · cases h
    · cases h1 : lift (Fof.count o.labels) with
      | error x => rw [h1] at h; cases h
      | ok N =>
        rw [h1] at h
        simp only [Except.bind] at h
        split at h
        · cases h
        · cases h2 : center e.argsort o.labels o.source.ranks Part.pos (if o.periodic then o.source.attrs.get "BoxSize" else none) with
          | error x => rw [h2] at h; cases h
          | ok p =>
            rw [h2] at h
            simp only at h
            cases h3 : center e.argsort o.labels o.source.ranks Part.vel none with
            | error x => rw [h3] at h; cases h
            | ok v =>
              rw [h3] at h
              simp only at h
              split at h <;> cases h
  · intro h1 h2 h3
    simp [findFeatures, catalog, h2, h3, Fof.count_empty_rank _ h1, lift, Err.ofFof, Except.bind, Except.map]
  · intro L h1 h2 h3 h4 h5 h6
    obtain ⟨N, hN, -⟩ := Fof.count_spec o.labels h5 h6
    have key : ∀ q, catalog e.argsort o.source o.labels q o.periodic = .error .typeError := by
      intro q
      simp [catalog, h1, h2, h3, h4, hN, lift, Except.bind, center]
    refine ⟨by simp [findFeatures, key, Except.map], ?_⟩
    intro hp
    unfold toHalos
    rw [if_neg (by rcases hp with rfl | rfl <;> simp), key]
    rfl

/-- The box is looked up again when the features are found: if the meta-data of the source have lost it meanwhile, ValueError. -/
theorem box_lost (e : Env) (o : Obj) (pk : Option String) (h1 : o.periodic = true) (h2 : o.source.attrs.get "BoxSize" = none) (h3 : "Position" ∈ o.source.columns)
    (h4 : "Velocity" ∈ o.source.columns) (h5 : o.labels ≠ []) (h6 : ∀ l ∈ o.labels, l ≠ []) : findFeatures e o pk = .error .valueError := by
  obtain ⟨N, hN, -⟩ := Fof.count_spec o.labels h5 h6
  simp [findFeatures, catalog, h1, h2, h3, h4, hN, lift, Except.bind, Except.map]

/-- C110, negation: `fof_find_peaks` never returns. -/
theorem findPeaks_fails (labels : List (List Nat)) (r : List Row) : findPeaks labels ≠ .ok r := by
  unfold findPeaks
  cases lift (Fof.count labels) <;> simp [Except.bind]

theorem get_set (d : Dict) (k : String) (v : Val) (x : String) : (d.set k v).get x = if x = k then some v else d.get x := by
  unfold Dict.set Dict.get
  split
  · rename_i h
    induction d with
    | nil => simp at h
    | cons p d ih =>
      simp only [List.map_cons]
      by_cases hp : p.1 = k
      · by_cases hx : x = k
        · subst hx; simp [hp]
        · rw [if_pos hp, if_neg hx, List.find?_cons_of_neg (by simpa using fun h => hx h.symm), List.find?_cons_of_neg (by simpa [hp] using fun h => hx h.symm)]
          by_cases hd : (d.any fun p => decide (p.1 = k)) = true
          · have := ih hd; rw [if_neg hx] at this; exact this
          · have e : d.map (fun p => if p.1 = k then (k, v) else p) = d := by
              conv_rhs => rw [← List.map_id d]
              apply List.map_congr_left
              intro q hq
              have : ¬ q.1 = k := by
                intro hqk; apply hd; rw [List.any_eq_true]; exact ⟨q, hq, by simpa using hqk⟩
              simp [this]
            rw [e]
      · have h' : (d.any fun p => decide (p.1 = k)) = true := by simpa [hp] using h
        rw [if_neg hp]
        by_cases hpx : p.1 = x
        · have hx : ¬ x = k := by rw [← hpx]; exact hp
          simp [hpx, hx]
        · rw [List.find?_cons_of_neg (by simpa using hpx), List.find?_cons_of_neg (by simpa using hpx)]
          exact ih h'
  · rename_i h
    simp only [List.any_eq_true, decide_eq_true_eq, not_exists, not_and] at h
    rw [List.find?_append]
    by_cases hx : x = k
    · subst hx
      rw [List.find?_eq_none.mpr (by simpa using fun a b hab he => h (a, b) hab he)]
      simp
    · rw [if_neg hx, List.find?_cons_of_neg (by simpa using fun h => hx h.symm)]
      simp

/-- C110: the attributes of the features: those of `FOF` (the linking length as given, not the one in use) over those of the source; the halos have the particle
mass as well. -/
theorem attrs_spec (e : Env) (o : Obj) (g : Args) (ho : o.attrs = attrsOf g) (mass redshift : ℚ) (mdef posdef peakcolumn : String) (pk : Option String) :
    (∀ rows a, findFeatures e o pk = .ok (rows, a) → a.get "linking_length" = some (.num g.linkingLength) ∧ a.get "nmin" = some (.num g.nmin) ∧
      a.get "absolute" = some (.flag g.absolute) ∧ a.get "periodic" = some (.flag g.periodic) ∧ a.get "domain_factor" = some (.num g.domainFactor) ∧
      ∀ k, k ∉ ["linking_length", "nmin", "absolute", "periodic", "domain_factor"] → a.get k = o.source.attrs.get k) ∧
    ∀ halos a, toHalos e o mass redshift mdef posdef peakcolumn = .ok (halos, a) → a.get "particle_mass" = some (.num mass) ∧ a.get "redshift" = some (.num redshift) ∧
      a.get "mdef" = some (.text mdef) ∧ a.get "linking_length" = some (.num g.linkingLength) ∧ a.get "halo_mass_key" = some (.text ("halo_m" ++ mdef)) ∧
      a.get "halo_radius_key" = some (.text ("halo_r" ++ mdef)) ∧ a.get "mass" = some (.text "Mass") ∧ a.get "velocity" = some (.text "Velocity") ∧
      a.get "position" = some (.text "Position") ∧
      ∀ k, k ∉ ["linking_length", "nmin", "absolute", "periodic", "domain_factor", "particle_mass", "redshift", "mass", "velocity", "position", "mdef", "halo_mass_key", "halo_radius_key"] →
        a.get k = o.source.attrs.get k := by
  constructor
  · intro rows a h
    have ha : a = o.source.attrs.update o.attrs := by
      unfold findFeatures at h
      cases hc : catalog e.argsort o.source o.labels pk o.periodic with
      | error x => rw [hc] at h; cases h
      | ok r => rw [hc] at h; cases h; rfl
    subst ha
    rw [ho]
    simp only [Dict.update, attrsOf, List.foldl_cons, List.foldl_nil, get_set]
    refine ⟨by simp, by simp, by simp, by simp, by simp, ?_⟩
    intro k hk
    simp only [List.mem_cons, List.not_mem_nil, or_false, not_or] at hk
    simp [hk]
  · intro halos a h
    unfold toHalos at h
    split at h
    · cases h
    · cases hc : catalog e.argsort o.source o.labels (if posdef = "cm" then none else some peakcolumn) o.periodic with
      | error x => rw [hc] at h; cases h
      | ok r =>
        rw [hc] at h
        simp only [Except.map, Except.ok.injEq, Prod.mk.injEq] at h
        rw [← h.2, ho]
        simp only [Dict.update, attrsOf, List.foldl_cons, List.foldl_nil, get_set]
        refine ⟨by simp, by simp, by simp, by simp, by simp, by simp, by simp, by simp, by simp, ?_⟩
        intro k hk
        simp only [List.mem_cons, List.not_mem_nil, or_false, not_or] at hk
        simp [hk]

end NBK.FofObj
