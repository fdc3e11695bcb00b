import Verif.TpcfObj.Lemmas

set_option linter.unusedSimpArgs false

/-! C118: the objects of the three-point function give the sum over the triangles of their catalog. -/
noncomputable section
namespace NBK.TpcfObj
open Tpcf (Vec Obj Result)

/-- The Legendre polynomial of the angle between two directions. -/
def leg (l : Nat) (u v : Vec ℝ) : ℝ := (Ylm.legendre l).eval (u.x * v.x + u.y * v.y + u.z * v.z)

/-- The triangles of a catalog: every object is the primary, and every object may be a secondary. -/
def Triangles (box : Option (Vec ℝ)) (edges : List ℝ) (l : Nat) (all : List (Obj ℝ)) (b1 b2 : Nat) : ℝ :=
  Tpcf.triangles (Ylm.tpcfEnv box edges) (leg l) all all b1 b2

/-- The multipoles of a catalog. -/
def Multipoles (box : Option (Vec ℝ)) (edges : List ℝ) (poles : List Nat) (all : List (Obj ℝ)) (res : Result ℝ) : Prop :=
  res.map (·.1) = poles ∧ ∀ x ∈ res, ∀ b1 b2, b1 + 1 < edges.length → b2 + 1 < edges.length →
    (4 * Real.pi) ^ 2 * x.2 b1 b2 = (2 * x.1 + 1) * Triangles box edges x.1 all b1 b2

/-- The arguments that a computation needs: distinct multipoles, increasing edges that are not negative. -/
structure Binning (poles : List Nat) (edges : List ℝ) : Prop where
  hpoles : poles ≠ []
  hnodup : poles.Nodup
  hedges : edges ≠ []
  hsorted : edges.Pairwise (· < ·)
  hnonneg : ∀ e ∈ edges, 0 ≤ e

/-! ### Boxes -/

/-- The objects after `pos %= BoxSize`. -/
def images (L : Vec ℝ) (per : Bool) (l : List (Obj ℝ)) : List (Obj ℝ) :=
  if per then l.map fun o => ⟨wrapVec L o.pos, o.w⟩ else l

theorem enforced_flatten (L : Vec ℝ) (per : Bool) (D : List (List (Obj ℝ))) :
    (enforced L per D).flatten = images L per D.flatten ∧ (enforced L per D).length = D.length := by
  cases per with
  | false => simp [enforced, images]
  | true => simp [enforced, images, List.map_flatten]

theorem images_inBox {L : Vec ℝ} (hx : 0 < L.x) (hy : 0 < L.y) (hz : 0 < L.z) (per : Bool) (l : List (Obj ℝ)) :
    ∀ o ∈ images L per l, Tpcf.InBox (if per then some L else none) o.pos := by
  intro o ho
  cases per with
  | false => intro K hK; simp at hK
  | true =>
    simp only [images, if_true, List.mem_map] at ho
    obtain ⟨o', _, rfl⟩ := ho
    intro K hK
    simp only [if_true, Option.mem_some_iff] at hK
    subst hK
    exact ⟨(wrap_range hx _).1, (wrap_range hx _).2, (wrap_range hy _).1, (wrap_range hy _).2, (wrap_range hz _).1, (wrap_range hz _).2⟩

theorem images_length (L : Vec ℝ) (per : Bool) (l : List (Obj ℝ)) : (images L per l).length = l.length := by
  cases per <;> simp [images]

/-- The data of a box, on any number of ranks and with any size of the bunches. -/
theorem runBox_spec (enum : Enum) (hk : KdOk enum) (L : Vec ℝ) (hx : 0 < L.x) (hy : 0 < L.y) (hz : 0 < L.z) (per : Bool)
    (np : Nat × Nat × Nat) (pedantic : Bool) (poles : List Nat) (edges : List ℝ) (hb : Binning poles edges) (D : List (List (Obj ℝ)))
    (hD : 0 < D.length) (hnp : np.1 * np.2.1 * np.2.2 = D.length) (hN : D.flatten = [] ∨ 9 * D.length < D.flatten.length) :
    ∃ res, runBox enum L per np pedantic poles edges D = .ok res ∧
      Multipoles (if per then some L else none) edges poles (images L per D.flatten) res := by
  classical
  have h1 : 0 < np.1 := Nat.pos_of_ne_zero fun h => by rw [h] at hnp; simp at hnp; omega
  have h2 : 0 < np.2.1 := Nat.pos_of_ne_zero fun h => by rw [h] at hnp; simp at hnp; omega
  have h3 : 0 < np.2.2 := Nat.pos_of_ne_zero fun h => by rw [h] at hnp; simp at hnp; omega
  obtain ⟨f1, f2⟩ := enforced_flatten L per D
  have hf : ∀ o ∈ images L per D.flatten, owner L np o.pos < D.length := by
    intro o _
    rw [← hnp]
    exact rank_lt (cell_spec hx h1 _).1 (cell_spec hy h2 _).1 (cell_spec hz h3 _).1
  obtain ⟨res, e1, e2, e3⟩ := runOn_spec enum hk (if per then some L else none) (if pedantic then 1 else 10000)
    (by cases pedantic <;> simp) poles hb.hpoles hb.hnodup edges hb.hsorted hb.hedges hb.hnonneg (images L per D.flatten) D.length
    (fun o => owner L np o.pos) (fun r o => decide (ghost L np (SurvPairs.maxOf edges) r o.pos))
    (decide (SurvPairs.maxOf edges > boxMax L * 0.25)) hf (images_inBox hx hy hz per _)
    (fun a _ b _ h => by simpa using ghost_of hx hy hz h1 h2 h3 per edges h)
    (by
      rcases hN with h | h
      · left; apply List.eq_nil_of_length_eq_zero; rw [images_length, h]; rfl
      · right; exact pigeon _ _ _ hf (by rw [images_length]; exact h))
  refine ⟨res, ?_, e2, e3⟩
  rw [← e1]
  unfold runBox
  dsimp only
  rw [if_neg hb.hedges]
  congr 1
  unfold decomposeBox partsOf
  rw [f1, f2]
  apply List.map_congr_left
  intro r _
  by_cases hc : SurvPairs.maxOf edges > boxMax L * 0.25
  · simp only [hc, if_true, decide_true]
  · simp only [hc, if_false, decide_false, Bool.false_eq_true]

/-- **C118** for boxes (partial: with more than nine objects per rank, see `few_objects`). The multipoles of a catalog are, up to the
normalisation, the sum over all triangles of its objects: with periodic images if `periodic`, with the weights of the weight column, on
any number of ranks. -/
theorem sim_spec_partial (enum : Enum) (hk : KdOk enum) (np : Nat × Nat × Nat) (src : Source) (poles : List Nat) (edges : List ℝ)
    (hb : Binning poles edges) (BoxSize : Option Size) (per : Bool) (weight position : String) (pos : List (List (Vec ℝ)))
    (w : List (List ℝ)) (hpos : src.vec.lookup position = some pos) (hw : src.num.lookup weight = some w) (L : Vec ℝ)
    (hL : verifyBox src.box BoxSize = .ok L) (hx : 0 < L.x) (hy : 0 < L.y) (hz : 0 < L.z)
    (hmax : per = true → SurvPairs.maxOf edges ≤ 0.5 * boxMin L) (hD : 0 < (rows pos w).length)
    (hnp : np.1 * np.2.1 * np.2.2 = (rows pos w).length)
    (hN : (rows pos w).flatten = [] ∨ 9 * (rows pos w).length < (rows pos w).flatten.length) :
    ∃ out, simBox enum np src poles edges BoxSize (some per) weight position = .ok out ∧ out.edges = edges ∧ out.box = some L ∧
      out.periodic = some per ∧
      Multipoles (if per then some L else none) edges poles (images L per (rows pos w).flatten) out.poles := by
  obtain ⟨res, e1, e2⟩ := runBox_spec enum hk L hx hy hz per np false poles edges hb (rows pos w) hD hnp hN
  refine ⟨⟨res, edges, some L, some per⟩, ?_, rfl, rfl, rfl, e2⟩
  unfold simBox
  rw [hpos, hw]
  dsimp only
  rw [hL]
  dsimp only
  rw [if_neg (by
    rintro ⟨hp, h | h⟩
    · exact hb.hedges h
    · exact absurd h (not_lt.mpr (hmax hp))), e1]

/-- The multipoles determine the values. -/
theorem multipoles_unique {box : Option (Vec ℝ)} {edges : List ℝ} {poles : List Nat} {all all' : List (Obj ℝ)} {r r' : Result ℝ}
    (h : Multipoles box edges poles all r) (h' : Multipoles box edges poles all' r') (hp : all.Perm all') :
    ∀ i b1 b2 : Nat, b1 + 1 < edges.length → b2 + 1 < edges.length →
      (r[i]?.map fun x => (x.1, x.2 b1 b2)) = r'[i]?.map fun x => (x.1, x.2 b1 b2) := by
  intro i b1 b2 h1 h2
  have ht : ∀ l, Triangles box edges l all b1 b2 = Triangles box edges l all' b1 b2 := by
    intro l
    unfold Triangles
    rw [triangles_perm _ _ hp]
    unfold Tpcf.triangles
    congr 1
    apply List.map_congr_left
    intro p _
    rw [((hp.filter _).map _).sum_eq]
    congr 1
    apply List.map_congr_left
    intro j _
    rw [((hp.filter _).map _).sum_eq]
  have hm : r[i]?.map (·.1) = r'[i]?.map (·.1) := by rw [← List.getElem?_map, ← List.getElem?_map, h.1, h'.1]
  cases e : r[i]? with
  | none =>
    rw [e] at hm
    cases e' : r'[i]? with
    | none => rfl
    | some y => rw [e'] at hm; cases hm
  | some x =>
    rw [e] at hm
    cases e' : r'[i]? with
    | none => rw [e'] at hm; cases hm
    | some y =>
      rw [e'] at hm
      have hxy : x.1 = y.1 := by simpa using hm
      have a1 := h.2 x (List.mem_of_getElem? e) b1 b2 h1 h2
      have a2 := h'.2 y (List.mem_of_getElem? e') b1 b2 h1 h2
      rw [ht, hxy] at a1
      have h4 : (4 * Real.pi) ^ 2 ≠ 0 := by positivity
      have : x.2 b1 b2 = y.2 b1 b2 := mul_left_cancel₀ h4 (a1.trans a2.symm)
      simp [hxy, this]

theorem images_perm (L : Vec ℝ) (per : Bool) {l l' : List (Obj ℝ)} (h : l.Perm l') : (images L per l).Perm (images L per l') := by
  cases per with
  | false => exact h
  | true => exact h.map _

/-- C118: the layout of the catalog on the ranks, the number of ranks, the implementation of the tree and `pedantic` change nothing. -/
theorem layout_irrelevant_partial (enum enum' : Enum) (hk : KdOk enum) (hk' : KdOk enum') (L : Vec ℝ) (hx : 0 < L.x) (hy : 0 < L.y)
    (hz : 0 < L.z) (per : Bool) (np np' : Nat × Nat × Nat) (ped ped' : Bool) (poles : List Nat) (edges : List ℝ) (hb : Binning poles edges)
    (D D' : List (List (Obj ℝ))) (hD : 0 < D.length) (hD' : 0 < D'.length) (hnp : np.1 * np.2.1 * np.2.2 = D.length)
    (hnp' : np'.1 * np'.2.1 * np'.2.2 = D'.length) (hN : D.flatten = [] ∨ 9 * D.length < D.flatten.length)
    (hN' : D'.flatten = [] ∨ 9 * D'.length < D'.flatten.length) (hp : D.flatten.Perm D'.flatten) :
    ∃ r r', runBox enum L per np ped poles edges D = .ok r ∧ runBox enum' L per np' ped' poles edges D' = .ok r' ∧
      ∀ i b1 b2 : Nat, b1 + 1 < edges.length → b2 + 1 < edges.length →
        (r[i]?.map fun x => (x.1, x.2 b1 b2)) = r'[i]?.map fun x => (x.1, x.2 b1 b2) := by
  obtain ⟨r, e1, e2⟩ := runBox_spec enum hk L hx hy hz per np ped poles edges hb D hD hnp hN
  obtain ⟨r', e1', e2'⟩ := runBox_spec enum' hk' L hx hy hz per np' ped' poles edges hb D' hD' hnp' hN'
  exact ⟨r, r', e1, e1', multipoles_unique e2 e2' (images_perm L per hp)⟩

theorem wrap_add (L x : ℝ) (hL : 0 < L) (m : ℤ) : wrap L (x + m * L) = wrap L x := by
  unfold wrap
  rw [show (x + m * L) / L = x / L + m by field_simp, Int.floor_add_intCast]
  push_cast
  ring

/-- C118: in a periodic box, an object may be given by any of its images. -/
theorem image_irrelevant (enum : Enum) (L : Vec ℝ) (hx : 0 < L.x) (hy : 0 < L.y) (hz : 0 < L.z) (np : Nat × Nat × Nat) (ped : Bool)
    (poles : List Nat) (edges : List ℝ) (D : List (List (Obj ℝ))) (m : Obj ℝ → ℤ × ℤ × ℤ) :
    runBox enum L true np ped poles edges (D.map fun l => l.map fun o =>
      ⟨⟨o.pos.x + (m o).1 * L.x, o.pos.y + (m o).2.1 * L.y, o.pos.z + (m o).2.2 * L.z⟩, o.w⟩) =
      runBox enum L true np ped poles edges D := by
  have : (enforced L true (D.map fun l => l.map fun o =>
      ⟨⟨o.pos.x + (m o).1 * L.x, o.pos.y + (m o).2.1 * L.y, o.pos.z + (m o).2.2 * L.z⟩, o.w⟩)) = enforced L true D := by
    simp only [enforced, if_true, List.map_map]
    apply List.map_congr_left
    intro l _
    simp only [Function.comp_apply, List.map_map]
    apply List.map_congr_left
    intro o _
    simp only [Function.comp_apply, wrapVec, wrap_add _ _ hx, wrap_add _ _ hy, wrap_add _ _ hz]
  unfold runBox
  rw [this]

/-- The claim of `sim_spec_partial` fails for few objects: with one to nine objects no number of ranks works, because the progress
message divides by a tenth of the largest load. -/
theorem few_objects (enum : Enum) (L : Vec ℝ) (hx : 0 < L.x) (hy : 0 < L.y) (hz : 0 < L.z) (per : Bool) (np : Nat × Nat × Nat)
    (ped : Bool) (poles : List Nat) (hp : poles ≠ []) (edges : List ℝ) (he : edges ≠ []) (D : List (List (Obj ℝ)))
    (hnp : np.1 * np.2.1 * np.2.2 = D.length) (h0 : D.flatten ≠ []) (h10 : D.flatten.length < 10) :
    runBox enum L per np ped poles edges D = .error .zeroDivision := by
  classical
  obtain ⟨f1, f2⟩ := enforced_flatten L per D
  have hlen : 0 < D.length := by
    apply Nat.pos_of_ne_zero
    intro h
    rw [List.eq_nil_of_length_eq_zero h] at h0
    exact h0 rfl
  have h1 : 0 < np.1 := Nat.pos_of_ne_zero fun h => by rw [h] at hnp; simp at hnp; omega
  have h2 : 0 < np.2.1 := Nat.pos_of_ne_zero fun h => by rw [h] at hnp; simp at hnp; omega
  have h3 : 0 < np.2.2 := Nat.pos_of_ne_zero fun h => by rw [h] at hnp; simp at hnp; omega
  unfold runBox
  dsimp only
  rw [if_neg he]
  unfold runOn
  rw [Tpcf.few_primaries _ _ hp]
  · have hne : images L per D.flatten ≠ [] := by
      intro h
      have := images_length L per D.flatten
      rw [h] at this
      exact h0 (List.eq_nil_of_length_eq_zero this.symm)
    obtain ⟨o, ho⟩ := List.exists_mem_of_ne_nil _ hne
    have hr : owner L np o.pos < D.length := by
      rw [← hnp]
      exact rank_lt (cell_spec hx h1 _).1 (cell_spec hy h2 _).1 (cell_spec hz h3 _).1
    have hpos : 0 < ((images L per D.flatten).filter fun o' => decide (owner L np o'.pos = owner L np o.pos)).length :=
      List.length_pos_of_mem (List.mem_filter.mpr ⟨ho, by simp⟩)
    refine lt_of_lt_of_le hpos
      (((foldl_max_le _ _ _).mp (le_refl _)).2 _ (List.mem_map.mpr ⟨_, List.mem_map.mpr ⟨_, List.mem_map.mpr ⟨owner L np o.pos, by
        rw [f2]; exact List.mem_range.mpr hr, rfl⟩, rfl⟩, ?_⟩))
    dsimp only
    rw [f1]
  · refine lt_of_le_of_lt ((foldl_max_le _ _ 9).mpr ⟨by omega, ?_⟩) (by omega)
    intro x hx'
    obtain ⟨q, hq, rfl⟩ := List.mem_map.mp hx'
    obtain ⟨q', hq', rfl⟩ := List.mem_map.mp hq
    obtain ⟨r, _, rfl⟩ := List.mem_map.mp hq'
    dsimp only
    refine (List.length_filter_le _ _).trans ?_
    rw [f1, images_length]
    omega

/-! ### Arguments -/

/-- C118: the arguments that are refused: a missing column, no box, a scalar in `attrs['BoxSize']`, a different box in `attrs` and as
argument, separations beyond half the box, and `periodic=None`. -/
theorem refused (enum : Enum) (np : Nat × Nat × Nat) (src : Source) (poles : List Nat) (edges : List ℝ) (BoxSize : Option Size)
    (weight position : String) :
    ((src.vec.lookup position = none ∨ src.num.lookup weight = none) → ∀ per,
      simBox enum np src poles edges BoxSize per weight position = .error .valueError) ∧
    (∀ pos w, src.vec.lookup position = some pos → src.num.lookup weight = some w →
      simBox enum np src poles edges BoxSize none weight position = .error .keyError ∧
      (∀ x per, src.box = some (.num x) → simBox enum np src poles edges BoxSize (some per) weight position = .error .typeError) ∧
      (∀ per, src.box = none → BoxSize = none → simBox enum np src poles edges BoxSize (some per) weight position = .error .valueError) ∧
      (∀ per x y z s, src.box = some (.vec [x, y, z]) → BoxSize = some s → three s ≠ .ok ⟨x, y, z⟩ →
        simBox enum np src poles edges BoxSize (some per) weight position = .error .valueError) ∧
      (∀ L, verifyBox src.box BoxSize = .ok L → SurvPairs.maxOf edges > 0.5 * boxMin L →
        simBox enum np src poles edges BoxSize (some true) weight position = .error .valueError)) := by
  classical
  refine ⟨?_, ?_⟩
  · intro h per
    unfold simBox
    rcases h with h | h
    · rw [h]
    · rw [h]
      cases src.vec.lookup position <;> rfl
  · intro pos w hpos hw
    refine ⟨?_, ?_, ?_, ?_, ?_⟩
    · unfold simBox; rw [hpos, hw]
    · intro x per hb
      unfold simBox; rw [hpos, hw, hb]; rfl
    · intro per hb hB
      have : verifyBox src.box BoxSize = .error .valueError := by
        rw [hb, hB]
        simp [verifyBox, attrBox, argBox]
      unfold simBox; rw [hpos, hw]; dsimp only; rw [this]
    · intro per x y z s hb hB hs
      have : verifyBox src.box BoxSize = .error .valueError := by
        rw [hb, hB]
        simp only [verifyBox, attrBox, argBox, three]
        rcases s with a | l
        · simp only [three, Option.isSome_some, true_and] at hs ⊢
          by_cases h0 : (⟨a, a, a⟩ : Vec ℝ) = ⟨0, 0, 0⟩
          · rw [if_pos h0]
          · rw [if_neg h0, if_pos (fun h => hs (by rw [h]))]
        · match l with
          | [] => rfl
          | [a] =>
            simp only [three, Option.isSome_some, true_and] at hs ⊢
            by_cases h0 : (⟨a, a, a⟩ : Vec ℝ) = ⟨0, 0, 0⟩
            · rw [if_pos h0]
            · rw [if_neg h0, if_pos (fun h => hs (by rw [h]))]
          | [a, b] => rfl
          | [a, b, c] =>
            simp only [three, Option.isSome_some, true_and] at hs ⊢
            by_cases h0 : (⟨a, b, c⟩ : Vec ℝ) = ⟨0, 0, 0⟩
            · rw [if_pos h0]
            · rw [if_neg h0, if_pos (fun h => hs (by rw [h]))]
          | a :: b :: c :: d :: l => rfl
      unfold simBox; rw [hpos, hw]; dsimp only; rw [this]
    · intro L hL hm
      unfold simBox; rw [hpos, hw]; dsimp only; rw [hL]; dsimp only
      rw [if_pos ⟨rfl, Or.inr hm⟩]

/-- C118: the box is that of the catalog or the argument, a number standing for three equal sides. -/
theorem box_spec (x y z a : ℝ) (hv : (⟨x, y, z⟩ : Vec ℝ) ≠ ⟨0, 0, 0⟩) (ha : a ≠ 0) :
    verifyBox (some (.vec [x, y, z])) none = .ok ⟨x, y, z⟩ ∧ verifyBox none (some (.vec [x, y, z])) = .ok ⟨x, y, z⟩ ∧
      verifyBox (some (.vec [x, y, z])) (some (.vec [x, y, z])) = .ok ⟨x, y, z⟩ ∧ verifyBox none (some (.num a)) = .ok ⟨a, a, a⟩ ∧
      verifyBox (some (.vec [a])) none = .ok ⟨a, a, a⟩ := by
  have h3 : (⟨a, a, a⟩ : Vec ℝ) ≠ ⟨0, 0, 0⟩ := fun h => ha (congrArg Vec.x h)
  refine ⟨?_, ?_, ?_, ?_, ?_⟩ <;> simp [verifyBox, attrBox, argBox, three] <;>
    first | exact fun h1 h2 h3 => hv (by rw [h1, h2, h3]) | exact ha

/-! ### Surveys -/

/-- **C118** for surveys (partial: with more than nine objects per rank). The multipoles are, up to the normalisation, the sum over all
triangles of the objects at their comoving positions. -/
theorem survey_spec_partial (enum : Enum) (hk : KdOk enum) (np : Nat → Nat) (rank : Nat → Nat → Nat → Nat) (src : Source)
    (poles : List Nat) (edges : List ℝ) (hb : Binning poles edges) (dist : ℝ → ℝ) (factor : Nat) (ra dec redshift weight : String)
    (a d z w : List (List ℝ)) (ha : src.num.lookup ra = some a) (hd : src.num.lookup dec = some d)
    (hz : src.num.lookup redshift = some z) (hw : src.num.lookup weight = some w)
    (hrank : ∀ i j k, rank i j k < (skyRows a d z w).length)
    (hN : (skyRows a d z w).flatten = [] ∨ 9 * (skyRows a d z w).length < (skyRows a d z w).flatten.length) :
    ∃ out, survey enum np rank src poles edges (some dist) factor ra dec redshift weight = .ok out ∧ out.edges = edges ∧
      Multipoles none edges poles ((skyRows a d z w).flatten.map (place dist)) out.poles := by
  classical
  generalize hg : skyRows a d z w = D at *
  let dom := SurvPairs.domain (some dist) factor np rank (D.map fun l => l.map (·.1)) none
  have hf : ∀ o ∈ D.flatten.map (place dist), dom.owner (skyVec o.pos) < D.length := fun o _ => hrank _ _ _
  obtain ⟨res, e1, e2, e3⟩ := runOn_spec enum hk none 10000 (by omega) poles hb.hpoles hb.hnodup edges hb.hsorted hb.hedges hb.hnonneg
    (D.flatten.map (place dist)) D.length (fun o => dom.owner (skyVec o.pos))
    (fun r o => decide (r ∈ dom.ghosts (SurvPairs.maxOf edges) (skyVec o.pos)))
    (decide (SurvPairs.maxOf edges > SurvPairs.boxMax dom * 0.25)) hf (fun o _ K hK => by simp at hK)
    (fun p _ s _ h => by
      obtain ⟨c1, c2, c3⟩ := comp_le h
      have := SurvPairs.owner_mem dom (a := skyVec p.pos) (c := skyVec s.pos) (s := SurvPairs.maxOf edges)
        (by rw [abs_sub_comm]; exact c1) (by rw [abs_sub_comm]; exact c2) (by rw [abs_sub_comm]; exact c3)
      simpa using this)
    (by
      rcases hN with h | h
      · left; rw [h]; rfl
      · right; exact pigeon _ _ _ hf (by rw [List.length_map]; exact h))
  refine ⟨⟨res, edges, none, none⟩, ?_, rfl, e2, e3⟩
  unfold survey
  rw [ha, hd, hz, hw]
  dsimp only
  rw [if_neg hb.hedges, hg]
  have : decomposeSky dist factor np rank (SurvPairs.maxOf edges) D = partsOf (D.flatten.map (place dist)) D.length
      (fun o => dom.owner (skyVec o.pos)) (fun r o => decide (r ∈ dom.ghosts (SurvPairs.maxOf edges) (skyVec o.pos)))
      (decide (SurvPairs.maxOf edges > SurvPairs.boxMax dom * 0.25)) := by
    unfold decomposeSky partsOf
    apply List.map_congr_left
    intro r _
    by_cases hc : SurvPairs.maxOf edges > SurvPairs.boxMax dom * 0.25
    · simp only [hc, if_true, decide_true, dom]
    · simp only [hc, if_false, decide_false, Bool.false_eq_true, dom]
  rw [this, e1]

/-- C118: surveys need a cosmology and all columns. -/
theorem survey_refused (enum : Enum) (np : Nat → Nat) (rank : Nat → Nat → Nat → Nat) (src : Source) (poles : List Nat) (edges : List ℝ)
    (cosmo : Option (ℝ → ℝ)) (factor : Nat) (ra dec redshift weight : String)
    (h : cosmo = none ∨ src.num.lookup ra = none ∨ src.num.lookup dec = none ∨ src.num.lookup redshift = none ∨ src.num.lookup weight = none) :
    survey enum np rank src poles edges cosmo factor ra dec redshift weight = .error .valueError := by
  unfold survey
  cases h1 : src.num.lookup ra <;> cases h2 : src.num.lookup dec <;> cases h3 : src.num.lookup redshift <;>
    cases h4 : src.num.lookup weight <;> simp only [h1, h2, h3, h4, reduceCtorEq, or_false, false_or] at h ⊢
  rw [h]
  by_cases he : edges = []
  · rw [if_pos he]
  · rw [if_neg he]

/-- `BoxSize.min()` and `BoxSize.max()` are the smallest and the largest side. -/
theorem box_sides (L : Vec ℝ) (c : ℝ) : (c ≤ boxMin L ↔ c ≤ L.x ∧ c ≤ L.y ∧ c ≤ L.z) ∧ (boxMax L ≤ c ↔ L.x ≤ c ∧ L.y ≤ c ∧ L.z ≤ c) := by
  unfold boxMin boxMax
  exact ⟨by rw [le_min_iff, le_min_iff], by rw [max_le_iff, max_le_iff]⟩

end NBK.TpcfObj
