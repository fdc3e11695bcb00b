import Verif.FofObj.Props
import Mathlib.Data.List.Perm.Basic
import Mathlib.Data.List.Sort
import Mathlib.Tactic.Linarith
import Mathlib.Tactic.LinearCombination
import Mathlib.Tactic.Ring

/-! C145: the groups of friends of two catalogs: layouts, translations, units, and nested groups. -/
set_option linter.unusedSimpArgs false
namespace NBK.FofObj
open NBK

/-! ### Labels -/

/-- The label of a particle. -/
def Obj.label (o : Obj) (p : Nat) : Option Nat := o.labels.flatten[p]?

/-- Two particles are in the same group. -/
def Obj.Together (o : Obj) (p q : Nat) : Prop := ∃ k, o.label p = some (k + 1) ∧ o.label q = some (k + 1)

/-- A call of `FOF`, with the machine it runs on. -/
structure Call where
  e : Env
  s : Source
  g : Args

/-- The call finds the linking length and the box, and the machine does what is expected from it. -/
structure Call.Fits (c : Call) (ll : ℚ) (box : Option Vec) : Prop where
  argsort : Fof.IsArgsort c.e.argsort
  sort : Fof.IsSort c.e.sort
  ranks : c.s.ranks ≠ []
  rank : ∀ r ∈ c.s.ranks, r ≠ []
  pos : "Position" ∈ c.s.columns
  len : linking c.e c.s c.g = .ok ll
  period : fofBox c.s c.g = .ok box
  parts : Fof.Decomposed (Friends c.s.all ll box) (c.e.held c.s ll box c.g.domainFactor) (c.s.ranks.map List.length) (c.e.kd c.s ll box c.g.domainFactor)

/-- `FOF` ends with the object `o`. -/
def Call.Ends (c : Call) (o : Obj) : Prop := ∃ fuel₀, ∀ fuel ≥ fuel₀, new c.e fuel c.s c.g = some (.ok o)

theorem Call.Ends.unique {c : Call} {o o' : Obj} (h : c.Ends o) (h' : c.Ends o') : o = o' := by
  obtain ⟨f, h⟩ := h
  obtain ⟨f', h'⟩ := h'
  have a := h (max f f') (le_max_left _ _)
  have b := h' (max f f') (le_max_right _ _)
  rw [a] at b
  cases b
  rfl

theorem Call.Fits.ends {c : Call} {ll : ℚ} {box : Option Vec} (h : c.Fits ll box) : ∃ (o : Obj) (comps : List (List Nat)), c.Ends o ∧
    o.source = c.s ∧ o.periodic = c.g.periodic ∧
    Groups (Friends c.s.all ll box) c.s.all.length c.g.nmin comps ∧ Labelled o.labels c.s.ranks comps := by
  obtain ⟨f, o, comps, h1, h2, h3, _, h4, h5, _⟩ := labels_spec c.e h.argsort h.sort c.s c.g h.ranks h.rank h.pos ll h.len box h.period h.parts
  exact ⟨o, comps, ⟨f, h1⟩, h2, h3, h4, h5⟩

section
variable {link : Nat → Nat → Prop} {n nmin : Nat} {comps : List (List Nat)} {labels : List (List Nat)} {ranks : List (List Part)}

theorem mem_component {p q : Nat} : q ∈ component link n p ↔ q < n ∧ Relation.EqvGen link p q := by
  simp [component]

theorem label_some (hl : Labelled labels ranks comps) {p : Nat} (hp : p < ranks.flatten.length) : ∃ v, labels.flatten[p]? = some v := by
  have e : labels.flatten.length = ranks.flatten.length := by rw [List.length_flatten, List.length_flatten, hl.sizes]
  exact ⟨_, List.getElem?_eq_getElem (by omega)⟩

/-- A label that is not zero is that of the component. -/
theorem label_component (hg : Groups link n nmin comps) (hl : Labelled labels ranks comps) (hn : n = ranks.flatten.length) {p k : Nat}
    (h : labels.flatten[p]? = some (k + 1)) : comps[k]? = some (component link n p) ∧ nmin < (component link n p).length := by
  have hk : k < comps.length := by
    have := hl.bound (k + 1) (List.mem_of_getElem? h)
    omega
  have hc := List.getElem?_eq_getElem hk
  have hp : p < ranks.flatten.length := by
    have e : labels.flatten.length = ranks.flatten.length := by rw [List.length_flatten, List.length_flatten, hl.sizes]
    rw [← e]
    exact (List.getElem?_eq_some_iff.mp h).1
  have hm : p ∈ comps[k] := by
    rw [hl.group k _ hc]
    simp only [List.mem_filter, List.mem_range, h, decide_true, and_true]
    exact hp
  obtain ⟨p0, h0, e0, e1⟩ := (hg.mem _).mp (List.getElem_mem hk)
  have he : component link n p0 = component link n p := component_congr link n p0 p (mem_component.mp (e0 ▸ hm)).2
  rw [← he, ← e0]
  exact ⟨hc, e1⟩

theorem component_label (hg : Groups link n nmin comps) (hl : Labelled labels ranks comps) (hn : n = ranks.flatten.length) {p : Nat} (hp : p < n)
    (h : nmin < (component link n p).length) : ∃ k, labels.flatten[p]? = some (k + 1) := by
  obtain ⟨k, hk, e⟩ := List.getElem_of_mem ((hg.mem _).mpr ⟨p, hp, rfl, h⟩)
  have hm := component_self link n p hp
  rw [← e, hl.group k _ (List.getElem?_eq_getElem hk)] at hm
  simp at hm
  exact ⟨k, hm.2⟩

/-- A particle has a group if it is in a component with more than `nmin` particles. -/
theorem grouped_iff (hg : Groups link n nmin comps) (hl : Labelled labels ranks comps) (hn : n = ranks.flatten.length) {p : Nat} (hp : p < n) :
    labels.flatten[p]? = some 0 ↔ (component link n p).length ≤ nmin := by
  obtain ⟨v, hv⟩ := label_some hl (hn ▸ hp)
  cases v with
  | zero =>
    refine ⟨fun _ => ?_, fun _ => hv⟩
    by_contra hc
    obtain ⟨k, hk⟩ := component_label hg hl hn hp (not_le.mp hc)
    rw [hv] at hk
    simp at hk
  | succ k =>
    have := (label_component hg hl hn hv).2
    refine ⟨fun h => ?_, fun h => absurd h (by omega)⟩
    rw [hv] at h
    simp at h

/-- Two particles have the same group if friends connect them, and the component is large enough. -/
theorem together_iff (hg : Groups link n nmin comps) (hl : Labelled labels ranks comps) (hn : n = ranks.flatten.length) {p q : Nat} (hp : p < n) (hq : q < n) :
    (∃ k, labels.flatten[p]? = some (k + 1) ∧ labels.flatten[q]? = some (k + 1)) ↔ nmin < (component link n p).length ∧ Relation.EqvGen link p q := by
  constructor
  · rintro ⟨k, h1, h2⟩
    obtain ⟨e1, s1⟩ := label_component hg hl hn h1
    obtain ⟨e2, _⟩ := label_component hg hl hn h2
    rw [e1] at e2
    have := component_self link n q hq
    rw [← Option.some.inj e2] at this
    exact ⟨s1, (mem_component.mp this).2⟩
  · rintro ⟨h1, h2⟩
    obtain ⟨k, hk⟩ := component_label hg hl hn hp h1
    have e := component_congr link n p q h2
    obtain ⟨j, hj⟩ := component_label hg hl hn hq (e ▸ h1)
    have a := (label_component hg hl hn hk).1
    have b := (label_component hg hl hn hj).1
    rw [← e] at b
    have hlt : k < comps.length := (List.getElem?_eq_some_iff.mp a).1
    have : k = j := (List.getElem?_inj hlt hg.nodup).mp (a.trans b.symm)
    exact ⟨k, hk, this ▸ hj⟩

end

/-! ### Two catalogs -/

section
variable {link link' : Nat → Nat → Prop} {n n' : Nat} (π : Nat ≃ Nat)

theorem eqv_map (h : ∀ p q, link' (π p) (π q) ↔ link p q) (p q : Nat) : Relation.EqvGen link' (π p) (π q) ↔ Relation.EqvGen link p q := by
  constructor
  · have key : ∀ a b, Relation.EqvGen link' a b → Relation.EqvGen link (π.symm a) (π.symm b) := by
      intro a b hab
      induction hab with
      | rel a b hab => exact .rel _ _ ((h _ _).mp (by simpa using hab))
      | refl a => exact .refl _
      | symm a b _ ih => exact .symm _ _ ih
      | trans a b c _ _ ih1 ih2 => exact .trans _ _ _ ih1 ih2
    intro hpq
    simpa using key _ _ hpq
  · intro hpq
    induction hpq with
    | rel a b hab => exact .rel _ _ ((h _ _).mpr hab)
    | refl a => exact .refl _
    | symm a b _ ih => exact .symm _ _ ih
    | trans a b c _ _ ih1 ih2 => exact .trans _ _ _ ih1 ih2

/-- A set of particles, seen in the other catalog. -/
def carry (n' : Nat) (c : List Nat) : List Nat := (List.range n').filter fun q => π.symm q ∈ c

theorem mem_carry (c : List Nat) (q : Nat) : q ∈ carry π n' c ↔ q < n' ∧ π.symm q ∈ c := by simp [carry]

theorem carry_component (h : ∀ p q, link' (π p) (π q) ↔ link p q) (hn : ∀ p, π p < n' ↔ p < n) (p : Nat) :
    carry π n' (component link n p) = component link' n' (π p) := by
  unfold carry
  conv_rhs => rw [component]
  apply List.filter_congr
  intro q hq
  rw [decide_eq_decide, mem_component]
  have e := eqv_map π h p (π.symm q)
  rw [Equiv.apply_symm_apply] at e
  rw [← e]
  have := hn (π.symm q)
  rw [Equiv.apply_symm_apply] at this
  exact ⟨fun t => t.2, fun t => ⟨this.mp (List.mem_range.mp hq), t⟩⟩

theorem carry_perm (hn : ∀ p, π p < n' ↔ p < n) {c : List Nat} (hc : ∀ q ∈ c, q < n) (hd : c.Nodup) : (carry π n' c).Perm (c.map π) := by
  refine (List.perm_ext_iff_of_nodup (List.nodup_range.filter _) (hd.map π.injective)).mpr fun q => ?_
  refine (mem_carry π c q).trans ?_
  rw [List.mem_map]
  constructor
  · rintro ⟨_, h⟩
    exact ⟨_, h, by simp⟩
  · rintro ⟨p, hp, rfl⟩
    exact ⟨(hn p).mpr (hc p hp), by simpa using hp⟩

theorem component_nodup (p : Nat) : (component link n p).Nodup := List.nodup_range.filter _

/-- The groups of the other catalog are the same ones, up to the order of those of the same size. -/
theorem groups_carried {nmin : Nat} {comps comps' : List (List Nat)} (h : ∀ p q, link' (π p) (π q) ↔ link p q) (hn : ∀ p, π p < n' ↔ p < n)
    (hg : Groups link n nmin comps) (hg' : Groups link' n' nmin comps') : comps'.Perm (comps.map (carry π n')) := by
  have hin : ∀ c ∈ comps, ∀ q ∈ c, q < n := by
    intro c hc q hq
    obtain ⟨p, _, rfl, _⟩ := (hg.mem c).mp hc
    exact (mem_component.mp hq).1
  have hnd : ∀ c ∈ comps, c.Nodup := by
    intro c hc
    obtain ⟨p, _, rfl, _⟩ := (hg.mem c).mp hc
    exact component_nodup p
  have hlen : ∀ p, (component link' n' (π p)).length = (component link n p).length := by
    intro p
    rw [← carry_component π h hn, (carry_perm π hn (fun q hq => (mem_component.mp hq).1) (component_nodup p)).length_eq, List.length_map]
  refine (List.perm_ext_iff_of_nodup hg'.nodup (List.Nodup.map_on ?_ hg.nodup)).mpr fun c' => ?_
  · -- a group is known from its image
    intro a ha b hb hab
    obtain ⟨p, _, rfl, _⟩ := (hg.mem a).mp ha
    obtain ⟨q, hq, rfl, _⟩ := (hg.mem b).mp hb
    rw [carry_component π h hn, carry_component π h hn] at hab
    have hq' := component_self link' n' (π q) ((hn q).mpr hq)
    rw [← hab] at hq'
    exact component_congr link n p q ((eqv_map π h p q).mp (mem_component.mp hq').2)
  · rw [hg'.mem, List.mem_map]
    constructor
    · rintro ⟨p', hp', rfl, hs⟩
      have e : π (π.symm p') = p' := by simp
      refine ⟨component link n (π.symm p'), (hg.mem _).mpr ⟨π.symm p', (hn _).mp (by rw [e]; exact hp'), rfl, ?_⟩, ?_⟩
      · rw [← hlen, e]; exact hs
      · rw [carry_component π h hn, e]
    · rintro ⟨c, hc, rfl⟩
      obtain ⟨p, hp, rfl, hs⟩ := (hg.mem c).mp hc
      exact ⟨π p, (hn p).mpr hp, carry_component π h hn p, by rw [carry_component π h hn, hlen]; exact hs⟩

end

/-- Two particles are friends. -/
def Near (ll : ℚ) (box : Option Vec) (x y : Vec) : Prop :=
  ∃ k : Fin 3 → ℤ, (x 0 - y 0 + k 0 * (box.elim 0 (· 0))) ^ 2 + (x 1 - y 1 + k 1 * (box.elim 0 (· 1))) ^ 2 +
      (x 2 - y 2 + k 2 * (box.elim 0 (· 2))) ^ 2 ≤ ll ^ 2

theorem friends_near (ps : List Part) (ll : ℚ) (box : Option Vec) (p q : Nat) :
    Friends ps ll box p q ↔ ∃ x y : Part, ps[p]? = some x ∧ ps[q]? = some y ∧ Near ll box x.pos y.pos := Iff.rfl

/-- The particles of the second call are those of the first after the change `f`, in the order `π`; ranks play no role. -/
def Moved (π : Nat ≃ Nat) (f : Part → Part) (c c' : Call) : Prop := ∀ p, c'.s.all[π p]? = (c.s.all[p]?).map f

/-- The same groups. -/
structure SameGroups (π : Nat ≃ Nat) (n : Nat) (o o' : Obj) : Prop where
  alone : ∀ p < n, o'.label (π p) = some 0 ↔ o.label p = some 0
  together : ∀ p < n, ∀ q < n, o'.Together (π p) (π q) ↔ o.Together p q

section
variable {c c' : Call} {ll ll' : ℚ} {box box' : Option Vec} {π : Nat ≃ Nat} {f : Part → Part}

theorem Moved.friends (hm : Moved π f c c') (hf : ∀ x y, Near ll' box' (f x).pos (f y).pos ↔ Near ll box x.pos y.pos) (p q : Nat) :
    Friends c'.s.all ll' box' (π p) (π q) ↔ Friends c.s.all ll box p q := by
  rw [friends_near, friends_near, hm p, hm q]
  constructor
  · rintro ⟨x, y, hx, hy, h⟩
    obtain ⟨x0, hx0, rfl⟩ := Option.map_eq_some_iff.mp hx
    obtain ⟨y0, hy0, rfl⟩ := Option.map_eq_some_iff.mp hy
    exact ⟨x0, y0, hx0, hy0, (hf _ _).mp h⟩
  · rintro ⟨x, y, hx, hy, h⟩
    exact ⟨f x, f y, by rw [hx]; rfl, by rw [hy]; rfl, (hf _ _).mpr h⟩

theorem Moved.lt (hm : Moved π f c c') (p : Nat) : π p < c'.s.all.length ↔ p < c.s.all.length := by
  have h := congrArg Option.isSome (hm p)
  rw [Option.isSome_map] at h
  have e : ∀ (l : List Part) (i : Nat), l[i]?.isSome = true ↔ i < l.length := fun l i => by simp
  rw [← e, ← e, h]

theorem Call.Fits.of_groups (h : c.Fits ll box) (h' : c'.Fits ll' box') (hn : c'.g.nmin = c.g.nmin) (hm : Moved π f c c')
    (hf : ∀ x y, Near ll' box' (f x).pos (f y).pos ↔ Near ll box x.pos y.pos) : ∃ (o o' : Obj) (comps comps' : List (List Nat)),
      c.Ends o ∧ c'.Ends o' ∧ o.source = c.s ∧ o'.source = c'.s ∧ o.periodic = c.g.periodic ∧ o'.periodic = c'.g.periodic ∧
      Groups (Friends c.s.all ll box) c.s.all.length c.g.nmin comps ∧ Labelled o.labels c.s.ranks comps ∧
      Groups (Friends c'.s.all ll' box') c'.s.all.length c'.g.nmin comps' ∧ Labelled o'.labels c'.s.ranks comps' ∧
      comps'.Perm (comps.map (carry π c'.s.all.length)) ∧ SameGroups π c.s.all.length o o' := by
  obtain ⟨o, comps, e, so, po, g, l⟩ := h.ends
  obtain ⟨o', comps', e', so', po', g', l'⟩ := h'.ends
  have hl := hm.friends hf
  refine ⟨o, o', comps, comps', e, e', so, so', po, po', g, l, g', l', groups_carried π hl hm.lt g (hn ▸ g'), ?_, ?_⟩
  · intro p hp
    unfold Obj.label
    rw [grouped_iff g l rfl hp, grouped_iff g' l' rfl ((hm.lt p).mpr hp), hn, ← carry_component π hl hm.lt,
      (carry_perm π hm.lt (fun q hq => (mem_component.mp hq).1) (component_nodup p)).length_eq, List.length_map]
  · intro p hp q hq
    unfold Obj.Together Obj.label
    rw [together_iff g l rfl hp hq, together_iff g' l' rfl ((hm.lt p).mpr hp) ((hm.lt q).mpr hq), hn, ← carry_component π hl hm.lt,
      (carry_perm π hm.lt (fun q hq => (mem_component.mp hq).1) (component_nodup p)).length_eq, List.length_map, eqv_map π hl]

/-- **C145** A change of the particles that keeps who is a friend of whom keeps the groups; the layout on the ranks and the order do not matter. -/
theorem fof_same (h : c.Fits ll box) (h' : c'.Fits ll' box') (hn : c'.g.nmin = c.g.nmin) (hm : Moved π f c c')
    (hf : ∀ x y, Near ll' box' (f x).pos (f y).pos ↔ Near ll box x.pos y.pos) :
    ∃ o o', c.Ends o ∧ c'.Ends o' ∧ SameGroups π c.s.all.length o o' := by
  obtain ⟨o, o', _, _, e, e', _, _, _, _, _, _, _, _, _, s⟩ := h.of_groups h' hn hm hf
  exact ⟨o, o', e, e', s⟩

/-- **C145** Ranks and order: the same particles on any ranks, in any order, have the same groups. -/
theorem fof_layout (h : c.Fits ll box) (h' : c'.Fits ll box) (hn : c'.g.nmin = c.g.nmin) (hm : Moved π id c c') :
    ∃ o o', c.Ends o ∧ c'.Ends o' ∧ SameGroups π c.s.all.length o o' := fof_same h h' hn hm fun _ _ => Iff.rfl

/-- **C145** Translations: the groups do not depend on the origin, with periods and without. -/
theorem fof_shift (t : Vec) (h : c.Fits ll box) (h' : c'.Fits ll box) (hn : c'.g.nmin = c.g.nmin)
    (hm : Moved π (fun x => { x with pos := fun i => x.pos i + t i }) c c') :
    ∃ o o', c.Ends o ∧ c'.Ends o' ∧ SameGroups π c.s.all.length o o' := by
  refine fof_same h h' hn hm fun x y => ?_
  unfold Near
  dsimp only
  simp only [add_sub_add_right_eq_sub]

/-- **C145** Images: in a periodic box, each particle may be given by any of its images. -/
theorem fof_images (m : Part → Fin 3 → ℤ) (h : c.Fits ll box) (h' : c'.Fits ll box) (hn : c'.g.nmin = c.g.nmin)
    (hm : Moved π (fun x => { x with pos := fun i => x.pos i + m x i * (box.elim 0 (· i)) }) c c') :
    ∃ o o', c.Ends o ∧ c'.Ends o' ∧ SameGroups π c.s.all.length o o' := by
  refine fof_same h h' hn hm fun x y => ?_
  unfold Near
  dsimp only
  constructor
  · rintro ⟨k, hk⟩
    refine ⟨fun i => k i + m x i - m y i, le_of_eq_of_le ?_ hk⟩
    push_cast
    ring
  · rintro ⟨k, hk⟩
    refine ⟨fun i => k i - m x i + m y i, le_of_eq_of_le ?_ hk⟩
    push_cast
    ring

/-- **C145** Mirror images, along any axes. -/
theorem fof_mirror (a : Fin 3 → ℤ) (ha : ∀ i, a i = 1 ∨ a i = -1) (h : c.Fits ll box) (h' : c'.Fits ll box) (hn : c'.g.nmin = c.g.nmin)
    (hm : Moved π (fun x => { x with pos := fun i => a i * x.pos i }) c c') :
    ∃ o o', c.Ends o ∧ c'.Ends o' ∧ SameGroups π c.s.all.length o o' := by
  have sq : ∀ i, (a i : ℚ) * a i = 1 := fun i => by rcases ha i with e | e <;> rw [e] <;> norm_num
  have key : ∀ (x y : Part) (k : Fin 3 → ℤ) (i : Fin 3), ((a i : ℚ) * x.pos i - a i * y.pos i + (a i * k i : ℤ) * (box.elim 0 (· i))) ^ 2 =
      (x.pos i - y.pos i + k i * (box.elim 0 (· i))) ^ 2 := by
    intro x y k i
    push_cast
    linear_combination ((x.pos i - y.pos i + k i * (box.elim 0 (· i))) ^ 2) * sq i
  refine fof_same h h' hn hm fun x y => ?_
  unfold Near
  dsimp only
  constructor
  · rintro ⟨k, hk⟩
    refine ⟨fun i => a i * k i, le_of_eq_of_le ?_ hk⟩
    have e : ∀ i, a i * (a i * k i) = k i := fun i => by rcases ha i with e | e <;> rw [e] <;> ring
    have k0 := key x y (fun i => a i * k i) 0
    have k1 := key x y (fun i => a i * k i) 1
    have k2 := key x y (fun i => a i * k i) 2
    rw [e] at k0 k1 k2
    rw [k0, k1, k2]
  · rintro ⟨k, hk⟩
    refine ⟨fun i => a i * k i, le_of_eq_of_le ?_ hk⟩
    rw [key, key, key]

/-- **C145** The unit of length: positions, periods and linking length times `a`. -/
theorem fof_units {a : ℚ} (ha : 0 < a) (h : c.Fits ll box) (h' : c'.Fits (a * ll) (box.map fun b i => a * b i)) (hn : c'.g.nmin = c.g.nmin)
    (hm : Moved π (fun x => { x with pos := fun i => a * x.pos i }) c c') :
    ∃ o o', c.Ends o ∧ c'.Ends o' ∧ SameGroups π c.s.all.length o o' := by
  refine fof_same h h' hn hm fun x y => ?_
  have e : ∀ i : Fin 3, ((box.map fun b i => a * b i).elim 0 (· i) : ℚ) = a * box.elim 0 (· i) := fun i => by cases box <;> simp
  unfold Near
  dsimp only
  refine exists_congr fun k => ?_
  rw [e, e, e]
  generalize (box.elim 0 (· 0) : ℚ) = b0
  generalize (box.elim 0 (· 1) : ℚ) = b1
  generalize (box.elim 0 (· 2) : ℚ) = b2
  have p : (0 : ℚ) < a ^ 2 := by positivity
  have q : (a * x.pos 0 - a * y.pos 0 + k 0 * (a * b0)) ^ 2 + (a * x.pos 1 - a * y.pos 1 + k 1 * (a * b1)) ^ 2 +
      (a * x.pos 2 - a * y.pos 2 + k 2 * (a * b2)) ^ 2 = a ^ 2 * ((x.pos 0 - y.pos 0 + k 0 * b0) ^ 2 + (x.pos 1 - y.pos 1 + k 1 * b1) ^ 2 +
      (x.pos 2 - y.pos 2 + k 2 * b2) ^ 2) := by ring
  rw [q, mul_pow]
  exact mul_le_mul_iff_right₀ p

end

/-! ### Nested groups -/

/-- **C145** A larger linking length and a smaller `nmin` only join groups: who was together stays together, and who has no group had none. -/
theorem fof_nested {c c' : Call} {ll ll' : ℚ} {box : Option Vec} (h : c.Fits ll box) (h' : c'.Fits ll' box) (hs : c'.s.all = c.s.all)
    (h0 : 0 ≤ ll) (hle : ll ≤ ll') (hn : c'.g.nmin ≤ c.g.nmin) :
    ∃ o o', c.Ends o ∧ c'.Ends o' ∧ ∀ p < c.s.all.length, (o'.label p = some 0 → o.label p = some 0) ∧
      ∀ q < c.s.all.length, o.Together p q → o'.Together p q := by
  obtain ⟨o, comps, e, _, _, g, l⟩ := h.ends
  obtain ⟨o', comps', e', _, _, g', l'⟩ := h'.ends
  have hlink : ∀ p q, Friends c.s.all ll box p q → Friends c'.s.all ll' box p q := by
    rintro p q ⟨x, y, hx, hy, k, hk⟩
    rw [hs]
    exact ⟨x, y, hx, hy, k, hk.trans (pow_le_pow_left₀ h0 hle 2)⟩
  have heqv : ∀ p q, Relation.EqvGen (Friends c.s.all ll box) p q → Relation.EqvGen (Friends c'.s.all ll' box) p q :=
    fun p q => Relation.EqvGen.mono hlink p q
  have hlen : ∀ p, (component (Friends c.s.all ll box) c.s.all.length p).length ≤ (component (Friends c'.s.all ll' box) c'.s.all.length p).length := by
    intro p
    refine (List.Nodup.subperm (component_nodup p) fun q hq => ?_).length_le
    rw [mem_component] at hq ⊢
    exact ⟨by rw [hs]; exact hq.1, heqv _ _ hq.2⟩
  refine ⟨o, o', e, e', fun p hp => ⟨?_, fun q hq => ?_⟩⟩
  · unfold Obj.label
    rw [grouped_iff g l rfl hp, grouped_iff g' l' rfl (by have := hp; rw [← hs] at this; exact this)]
    intro t
    exact ((hlen p).trans t).trans hn
  · unfold Obj.Together Obj.label
    rw [together_iff g l rfl hp hq, together_iff g' l' rfl (by have := hp; rw [← hs] at this; exact this) (by have := hq; rw [← hs] at this; exact this)]
    rintro ⟨t, u⟩
    exact ⟨lt_of_le_of_lt hn (lt_of_lt_of_le t (hlen p)), heqv _ _ u⟩

/-! ### Halos -/

/-- The call can make halos of the groups. -/
structure Call.Halos (c : Call) (b : Fin 3 → Option ℚ) : Prop where
  vel : "Velocity" ∈ c.s.columns
  box : IsBox (if c.g.periodic then c.s.attrs.get "BoxSize" else none) b
  has : c.g.periodic = true → c.s.attrs.get "BoxSize" ≠ none
  pos : Inside b c.s.all Part.pos
  init : "InitialPosition" ∈ c.s.columns → Inside b c.s.all Part.init

/-- Mass and velocity of the halo of a group. -/
def tracer (s : Source) (mass : ℚ) (c : List Nat) : ℚ × (Fin 3 → Option ℚ) :=
  (mass * c.length, fun i => some (mean ((members s c).map (·.vel i))))

theorem halos_tracers {c : Call} {o : Obj} {comps : List (List Nat)} {b : Fin 3 → Option ℚ} (hA : Fof.IsArgsort c.e.argsort) (hne : c.s.ranks ≠ [])
    (hr : ∀ r ∈ c.s.ranks, r ≠ []) (hpos : "Position" ∈ c.s.columns) (hh : c.Halos b) (hso : o.source = c.s) (hpo : o.periodic = c.g.periodic)
    (hl : Labelled o.labels c.s.ranks comps) (mass redshift : ℚ) (mdef peak : String) :
    ∃ halos attrs, toHalos c.e o mass redshift mdef "cm" peak = .ok (halos, attrs) ∧
      halos.flatten.map (fun h => (h.mass, h.vel)) = comps.map (tracer c.s mass) := by
  obtain ⟨halos, attrs, e, _, hlen, hk⟩ := halos_spec c.e hA o comps (by rw [hso]; exact hne) (by rw [hso]; exact hr) (by rw [hso]; exact hl)
    (by rw [hso]; exact hpos) (by rw [hso]; exact hh.vel) b (by rw [hso, hpo]; exact hh.box) (by rw [hso, hpo]; exact hh.has)
    (by rw [hso]; exact hh.pos) (by rw [hso]; exact hh.init) "cm" (Or.inl rfl) peak (fun h => by simp at h) mass redshift mdef
  refine ⟨halos, attrs, e, ?_⟩
  apply List.ext_getElem?
  intro k
  rw [List.getElem?_map, List.getElem?_map]
  cases hc : comps[k]? with
  | none =>
    have : halos.flatten[k]? = none := by
      rw [List.getElem?_eq_none_iff] at hc ⊢
      omega
    rw [this]
    rfl
  | some x =>
    obtain ⟨h, h1, h2⟩ := hk k x hc
    rw [h1, Option.map_some, Option.map_some, tracer, h2.mass]
    have hv : h.vel = fun i => some (mean ((members c.s x).map (·.vel i))) := by
      funext i
      have := h2.vel i
      rwa [if_pos rfl, hso] at this
    rw [hv]

theorem members_carried {c c' : Call} {π : Nat ≃ Nat} {f : Part → Part} (hm : Moved π f c c') {x : List Nat} (hx : ∀ q ∈ x, q < c.s.all.length)
    (hd : x.Nodup) : (members c'.s (carry π c'.s.all.length x)).Perm ((members c.s x).map f) := by
  refine (List.Perm.filterMap _ (carry_perm π hm.lt hx hd)).trans (List.Perm.of_eq ?_)
  unfold members
  rw [List.filterMap_map, List.map_filterMap]
  apply List.filterMap_congr
  intro q _
  exact hm q

/-- **C145** The halos of two catalogs with the same friends: the same masses in the same order, and halo by halo the same velocities, up to the order of
halos of the same mass. -/
theorem halos_same {c c' : Call} {ll ll' : ℚ} {box box' : Option Vec} {π : Nat ≃ Nat} {f : Part → Part} {b b' : Fin 3 → Option ℚ}
    (h : c.Fits ll box) (h' : c'.Fits ll' box') (hn : c'.g.nmin = c.g.nmin) (hm : Moved π f c c')
    (hf : ∀ x y, Near ll' box' (f x).pos (f y).pos ↔ Near ll box x.pos y.pos) (hv : ∀ x, (f x).vel = x.vel) (hh : c.Halos b) (hh' : c'.Halos b')
    (mass redshift : ℚ) (mdef peak : String) :
    ∃ o o' halos attrs halos' attrs', c.Ends o ∧ c'.Ends o' ∧ toHalos c.e o mass redshift mdef "cm" peak = .ok (halos, attrs) ∧
      toHalos c'.e o' mass redshift mdef "cm" peak = .ok (halos', attrs') ∧
      halos'.flatten.map (·.mass) = halos.flatten.map (·.mass) ∧
      (halos'.flatten.map fun h => (h.mass, h.vel)).Perm (halos.flatten.map fun h => (h.mass, h.vel)) := by
  obtain ⟨o, o', comps, comps', e, e', so, so', po, po', g, l, g', l', hp, _⟩ := h.of_groups h' hn hm hf
  obtain ⟨halos, attrs, t, ht⟩ := halos_tracers h.argsort h.ranks h.rank h.pos hh so po l mass redshift mdef peak
  obtain ⟨halos', attrs', t', ht'⟩ := halos_tracers h'.argsort h'.ranks h'.rank h'.pos hh' so' po' l' mass redshift mdef peak
  have hin : ∀ x ∈ comps, (∀ q ∈ x, q < c.s.all.length) ∧ x.Nodup := by
    intro x hx
    obtain ⟨p, _, rfl, _⟩ := (g.mem x).mp hx
    exact ⟨fun q hq => (mem_component.mp hq).1, component_nodup p⟩
  have hlen : ∀ x ∈ comps, (carry π c'.s.all.length x).length = x.length := fun x hx => by
    rw [(carry_perm π hm.lt (hin x hx).1 (hin x hx).2).length_eq, List.length_map]
  have htr : ∀ x ∈ comps, tracer c'.s mass (carry π c'.s.all.length x) = tracer c.s mass x := by
    intro x hx
    have hperm := members_carried hm (hin x hx).1 (hin x hx).2
    unfold tracer mean
    rw [hlen x hx]
    congr 1
    funext i
    have q := hperm.map (·.vel i)
    rw [q.sum_eq, q.length_eq, List.map_map]
    simp only [Function.comp_def, hv, List.length_map]
  have hsizes : comps'.map List.length = comps.map List.length := by
    have q : (comps'.map List.length).Perm (comps.map List.length) := by
      refine (hp.map List.length).trans (List.Perm.of_eq ?_)
      rw [List.map_map]
      exact List.map_congr_left hlen
    refine q.eq_of_pairwise (le := fun a b : Nat => b ≤ a) (fun a b _ _ h1 h2 => le_antisymm h2 h1) ?_ ?_
    · rw [List.pairwise_map]; exact g'.sorted
    · rw [List.pairwise_map]; exact g.sorted
  refine ⟨o, o', halos, attrs, halos', attrs', e, e', t, t', ?_, ?_⟩
  · have m1 := congrArg (List.map Prod.fst) ht
    have m2 := congrArg (List.map Prod.fst) ht'
    rw [List.map_map, List.map_map] at m1 m2
    have z : ∀ (s : Source) (cs : List (List Nat)), cs.map (Prod.fst ∘ tracer s mass) = (cs.map List.length).map fun n : Nat => mass * (n : ℚ) := by
      intro s cs
      rw [List.map_map]
      rfl
    rw [z] at m1 m2
    rw [hsizes] at m2
    exact m2.trans m1.symm
  · rw [ht, ht']
    refine (hp.map _).trans (List.Perm.of_eq ?_)
    rw [List.map_map]
    exact List.map_congr_left htr

end NBK.FofObj
