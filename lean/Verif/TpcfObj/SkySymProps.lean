import Verif.TpcfObj.SymProps

set_option linter.unusedSimpArgs false

/-! C144: what the multipoles of a survey do not depend on, and how they scale; bounds of multipoles. -/
noncomputable section
namespace NBK.TpcfObj
open Tpcf (Vec Obj Result)

/-- The arguments of `SurveyData3PCF` other than the multipoles and the edges, and the machine it runs on. -/
structure SkyCall where
  enum : Enum
  np : Nat → Nat
  rank : Nat → Nat → Nat → Nat
  src : Source
  dist : ℝ → ℝ
  factor : Nat
  ra : String
  dec : String
  redshift : String
  weight : String

/-- The call. -/
def SkyCall.out (c : SkyCall) (poles : List Nat) (edges : List ℝ) : Except Err Out :=
  survey c.enum c.np c.rank c.src poles edges (some c.dist) c.factor c.ra c.dec c.redshift c.weight

/-- The call finds the rows `D`, and nothing raises. -/
structure SkyCall.Fits (c : SkyCall) (D : List (List (SurvPairs.Obj × ℝ))) : Prop where
  kd : KdOk c.enum
  cols : ∃ a d z w, c.src.num.lookup c.ra = some a ∧ c.src.num.lookup c.dec = some d ∧ c.src.num.lookup c.redshift = some z ∧
    c.src.num.lookup c.weight = some w ∧ skyRows a d z w = D
  ranks : ∀ i j k, c.rank i j k < D.length
  load : D.flatten = [] ∨ 9 * D.length < D.flatten.length

theorem SkyCall.Fits.spec {c : SkyCall} {D : List (List (SurvPairs.Obj × ℝ))} (h : c.Fits D) {poles : List Nat} {edges : List ℝ}
    (hb : Binning poles edges) : ∃ out, c.out poles edges = .ok out ∧ Multipoles none edges poles (D.flatten.map (place c.dist)) out.poles := by
  obtain ⟨a, d, z, w, ha, hd, hz, hw, rfl⟩ := h.cols
  obtain ⟨out, e, _, hm⟩ := survey_spec_partial c.enum h.kd c.np c.rank c.src poles edges hb c.dist c.factor c.ra c.dec c.redshift c.weight a d z w
    ha hd hz hw h.ranks h.load
  exact ⟨out, e, hm⟩

/-- Both calls succeed, and all values of the second are `k` times those of the first. -/
def SkyCall.Relates (c c' : SkyCall) (poles : List Nat) (edges edges' : List ℝ) (k : ℝ) : Prop :=
  ∃ out out', c.out poles edges = .ok out ∧ c'.out poles edges' = .ok out' ∧ Scaled edges.length k out.poles out'.poles

theorem sky_related {c c' : SkyCall} {poles : List Nat} {edges edges' : List ℝ} {D D' : List (List (SurvPairs.Obj × ℝ))} {k : ℝ}
    (h : c.Fits D) (h' : c'.Fits D') (hb : Binning poles edges) (hb' : Binning poles edges') (hlen : edges'.length = edges.length)
    (ht : ∀ l b1 b2 : Nat, Triangles none edges' l (D'.flatten.map (place c'.dist)) b1 b2 =
        k * Triangles none edges l (D.flatten.map (place c.dist)) b1 b2) :
    c.Relates c' poles edges edges' k := by
  obtain ⟨out, e, hm⟩ := h.spec hb
  obtain ⟨out', e', hm'⟩ := h'.spec hb'
  exact ⟨out, out', e, e', multipoles_scaled hm hm' hlen fun l b1 b2 _ _ => ht l b1 b2⟩

/-- **C144** The unit of the weights of a survey. -/
theorem sky_weights {c c' : SkyCall} {poles : List Nat} {edges : List ℝ} {D D' : List (List (SurvPairs.Obj × ℝ))} (k : ℝ)
    (h : c.Fits D) (h' : c'.Fits D') (hb : Binning poles edges) (hd : c'.dist = c.dist)
    (hD : D'.flatten.Perm (D.flatten.map fun o => (o.1, k * o.2))) : c.Relates c' poles edges edges (k ^ 3) := by
  refine sky_related h h' hb hb rfl fun l b1 b2 => ?_
  rw [triangles_all_perm _ _ _ (hD.map _), hd, List.map_map]
  have := triangles_rows (box := none) (box' := none) (edges := edges) one_pos (place c.dist) (place c.dist ∘ fun o => (o.1, k * o.2)) D.flatten (c := k)
    (fun _ => rfl) (fun p j => by rw [one_pow, one_mul]; rfl) l b1 b2 (fun p j q _ _ => by rw [one_pow, one_mul]; rfl)
  rwa [edges_one] at this

/-- **C144** Objects of weight zero can be left out of a survey. -/
theorem sky_zero {c c' : SkyCall} {poles : List Nat} {edges : List ℝ} {D D' : List (List (SurvPairs.Obj × ℝ))} (Z : List (SurvPairs.Obj × ℝ))
    (h : c.Fits D) (h' : c'.Fits D') (hb : Binning poles edges) (hd : c'.dist = c.dist) (hZ : ∀ o ∈ Z, o.2 = 0)
    (hD : D'.flatten.Perm (D.flatten ++ Z)) : c.Relates c' poles edges edges 1 := by
  refine sky_related h h' hb hb rfl fun l b1 b2 => ?_
  rw [triangles_all_perm _ _ _ (hD.map _), one_mul, hd, List.map_append]
  refine triangles_zero _ _ _ _ _ (fun o ho => ?_) _ _
  obtain ⟨q, hq, rfl⟩ := List.mem_map.mp ho
  exact hZ q hq

/-- **C144** Copies of a survey. -/
theorem sky_copies {c c' : SkyCall} {poles : List Nat} {edges : List ℝ} {D D' : List (List (SurvPairs.Obj × ℝ))} (n : Nat)
    (h : c.Fits D) (h' : c'.Fits D') (hb : Binning poles edges) (hd : c'.dist = c.dist)
    (hD : D'.flatten.Perm (List.replicate n D.flatten).flatten) : c.Relates c' poles edges edges ((n : ℝ) ^ 3) := by
  refine sky_related h h' hb hb rfl fun l b1 b2 => ?_
  rw [triangles_all_perm _ _ _ (hD.map _), hd, List.map_flatten, List.map_replicate, triangles_copies]

theorem place_dot (dist : ℝ → ℝ) (p q : SurvPairs.Obj × ℝ) : dot (place dist p).pos (place dist q).pos =
    dist p.1.redshift * dist q.1.redshift * (SurvTpcf.dir p.1).dot (SurvTpcf.dir q.1) := by
  simp only [place, SurvPairs.cartesian, dot, SurvTpcf.dir, Sky.Vec.dot, Sky.smul_x, Sky.smul_y, Sky.smul_z]
  ring

theorem dpos_dot (p j k : Obj ℝ) : dot (Tpcf.dposOf none p j) (Tpcf.dposOf none p k) =
    dot j.pos k.pos - dot p.pos k.pos - dot p.pos j.pos + dot p.pos p.pos := by
  simp only [Tpcf.dposOf, dot]
  ring

/-- The triangles of a sky depend on the distances and the angles between the objects only. -/
theorem sky_angles {c c' : SkyCall} {poles : List Nat} {edges : List ℝ} {D D' : List (List (SurvPairs.Obj × ℝ))} {s : ℝ} (hs : 0 < s)
    (f : SurvPairs.Obj → SurvPairs.Obj) (h : c.Fits D) (h' : c'.Fits D') (hb : Binning poles edges) (hb' : Binning poles (edges.map (s * ·)))
    (hd : ∀ o, c'.dist (f o).redshift = s * c.dist o.redshift)
    (hf : ∀ p q, (SurvTpcf.dir (f p)).dot (SurvTpcf.dir (f q)) = (SurvTpcf.dir p).dot (SurvTpcf.dir q))
    (hD : D'.flatten.Perm (D.flatten.map fun o => (f o.1, o.2))) : c.Relates c' poles edges (edges.map (s * ·)) 1 := by
  refine sky_related h h' hb hb' (by simp) fun l b1 b2 => ?_
  rw [triangles_all_perm _ _ _ (hD.map _), List.map_map]
  have e : ∀ p q : SurvPairs.Obj × ℝ, dot (place c'.dist (f p.1, p.2)).pos (place c'.dist (f q.1, q.2)).pos =
      s ^ 2 * dot (place c.dist p).pos (place c.dist q).pos := by
    intro p q
    rw [place_dot, place_dot, hd, hd, hf]
    ring
  have e3 : ∀ p j k : SurvPairs.Obj × ℝ, dot (Tpcf.dposOf none (place c'.dist (f p.1, p.2)) (place c'.dist (f j.1, j.2)))
      (Tpcf.dposOf none (place c'.dist (f p.1, p.2)) (place c'.dist (f k.1, k.2))) =
      s ^ 2 * dot (Tpcf.dposOf none (place c.dist p) (place c.dist j)) (Tpcf.dposOf none (place c.dist p) (place c.dist k)) := by
    intro p j k
    rw [dpos_dot, dpos_dot, e, e, e, e]
    ring
  have := triangles_rows (box := none) (box' := none) (edges := edges) hs (place c.dist) (place c'.dist ∘ fun o => (f o.1, o.2)) D.flatten (c := 1)
    (fun o => by simp [place]) (fun p j => e3 p j j) l b1 b2 (fun p j k _ _ => e3 p j k)
  rwa [one_pow] at this

/-- **C144** The sky may be rotated or mirrored. -/
theorem sky_rotated {c c' : SkyCall} {poles : List Nat} {edges : List ℝ} {D D' : List (List (SurvPairs.Obj × ℝ))} {R : Sky.Vec → Sky.Vec}
    (hR : ∀ u v, (R u).dot (R v) = u.dot v) (h : c.Fits D) (h' : c'.Fits D') (hb : Binning poles edges) (hd : c'.dist = c.dist)
    (hD : D'.flatten.Perm (D.flatten.map fun o => (SurvTpcf.rotated R o.1, o.2))) : c.Relates c' poles edges edges 1 := by
  have := sky_angles (edges := edges) one_pos (SurvTpcf.rotated R) h h' hb (by rwa [edges_one]) (fun o => by rw [hd, one_mul]; rfl)
    (fun p q => by rw [SurvTpcf.dir_rotated R hR, SurvTpcf.dir_rotated R hR, hR]) hD
  rwa [edges_one] at this

/-- **C144** The unit of the distances of a survey, for example another Hubble constant: distances and edges times `s`. -/
theorem sky_units {c c' : SkyCall} {poles : List Nat} {edges : List ℝ} {D D' : List (List (SurvPairs.Obj × ℝ))} {s : ℝ} (hs : 0 < s)
    (h : c.Fits D) (h' : c'.Fits D') (hb : Binning poles edges) (hb' : Binning poles (edges.map (s * ·))) (hd : ∀ z, c'.dist z = s * c.dist z)
    (hD : D'.flatten.Perm D.flatten) : c.Relates c' poles edges (edges.map (s * ·)) 1 :=
  sky_angles hs id h h' hb hb' (fun o => hd _) (fun _ _ => rfl) (by simpa using hD)

/-! ### Signs and bounds -/

/-- **C144** The matrices of the multipoles are symmetric in the two bins. -/
theorem multipoles_symm {box : Option (Vec ℝ)} {edges : List ℝ} {poles : List Nat} {all : List (Obj ℝ)} {r : Result ℝ}
    (h : Multipoles box edges poles all r) : ∀ x ∈ r, ∀ b1 b2, b1 + 1 < edges.length → b2 + 1 < edges.length → x.2 b1 b2 = x.2 b2 b1 := by
  intro x hx b1 b2 h1 h2
  have h4 : (4 * Real.pi) ^ 2 ≠ 0 := by positivity
  refine mul_left_cancel₀ h4 ?_
  rw [h.2 x hx b1 b2 h1 h2, h.2 x hx b2 b1 h2 h1]
  unfold Triangles
  rw [Tpcf.triangles_symm _ _ (fun u v => by unfold leg; congr 1; ring)]

theorem sum_flatMap' {α : Type} (J : List α) (F : α → List ℝ) : (J.flatMap F).sum = (J.map fun j => (F j).sum).sum := by
  induction J with
  | nil => rfl
  | cons j J ih => rw [List.flatMap_cons, List.sum_append, ih, List.map_cons, List.sum_cons]

/-- The Legendre polynomial of the angle is a sum of products of functions of the two directions. -/
theorem leg_gram (l : Nat) : ∃ Fs : List (Vec ℝ → ℝ), ∀ u v : Vec ℝ, Ylm.Unit3 u.x u.y u.z → Ylm.Unit3 v.x v.y v.z →
    leg l u v = (Fs.map fun F => F u * F v).sum := by
  have hK : (0 : ℝ) < 4 * Real.pi / (2 * l + 1) := by positivity
  refine ⟨(List.range (l + 1)).flatMap fun m => if m = 0 then
      [fun u => Real.sqrt (4 * Real.pi / (2 * l + 1)) * (Ylm.complexYlm l m u.x u.y u.z).re]
    else [fun u => Real.sqrt (2 * (4 * Real.pi / (2 * l + 1))) * (Ylm.complexYlm l m u.x u.y u.z).re,
      fun u => Real.sqrt (2 * (4 * Real.pi / (2 * l + 1))) * (Ylm.complexYlm l m u.x u.y u.z).im], fun u v hu hv => ?_⟩
  have h := Ylm.complex_addition l hu hv
  have e : leg l u v = 4 * Real.pi / (2 * l + 1) * ((2 * l + 1) / (4 * Real.pi) * (Ylm.legendre l).eval (u.x * v.x + u.y * v.y + u.z * v.z)) := by
    unfold leg
    have := Real.pi_pos
    field_simp
  rw [e, ← h, ← List.sum_map_mul_left, List.map_flatMap]
  rw [sum_flatMap']
  congr 1
  apply List.map_congr_left
  intro m _
  have q1 : Real.sqrt (4 * Real.pi / (2 * l + 1)) * Real.sqrt (4 * Real.pi / (2 * l + 1)) = 4 * Real.pi / (2 * l + 1) := Real.mul_self_sqrt hK.le
  have q2 : Real.sqrt (2 * (4 * Real.pi / (2 * l + 1))) * Real.sqrt (2 * (4 * Real.pi / (2 * l + 1))) = 2 * (4 * Real.pi / (2 * l + 1)) :=
    Real.mul_self_sqrt (by positivity)
  by_cases hm : m = 0
  · rw [if_pos hm, if_pos hm]
    simp only [List.map_cons, List.map_nil, List.sum_cons, List.sum_nil, add_zero]
    linear_combination (-(Ylm.complexYlm l m u.x u.y u.z).re * (Ylm.complexYlm l m v.x v.y v.z).re) * q1
  · rw [if_neg hm, if_neg hm]
    simp only [List.map_cons, List.map_nil, List.sum_cons, List.sum_nil, add_zero]
    linear_combination (-(Ylm.complexYlm l m u.x u.y u.z).re * (Ylm.complexYlm l m v.x v.y v.z).re -
      (Ylm.complexYlm l m u.x u.y u.z).im * (Ylm.complexYlm l m v.x v.y v.z).im) * q2

theorem gram_sum {α : Type} (J K : List α) (Fs : List (α → ℝ)) :
    (J.map fun j => (K.map fun k => (Fs.map fun F => F j * F k).sum).sum).sum = (Fs.map fun F => (J.map F).sum * (K.map F).sum).sum := by
  induction Fs with
  | nil => simp
  | cons F Fs ih =>
    simp only [List.map_cons, List.sum_cons, List.sum_map_add]
    rw [ih]
    congr 1
    simp only [List.sum_map_mul_left, List.sum_map_mul_right]

theorem dir_unit (box : Option (Vec ℝ)) (edges : List ℝ) (p s : Obj ℝ) (h : 0 < Tpcf.sep (Ylm.tpcfEnv box edges) p s) :
    Ylm.Unit3 (Tpcf.dir (Ylm.tpcfEnv box edges) p s).x (Tpcf.dir (Ylm.tpcfEnv box edges) p s).y (Tpcf.dir (Ylm.tpcfEnv box edges) p s).z := by
  unfold Ylm.Unit3 Tpcf.dir
  simp only
  have hsq : Tpcf.sep (Ylm.tpcfEnv box edges) p s ^ 2 =
      (Tpcf.dposOf (Ylm.tpcfEnv box edges).box p s).x ^ 2 + (Tpcf.dposOf (Ylm.tpcfEnv box edges).box p s).y ^ 2 +
        (Tpcf.dposOf (Ylm.tpcfEnv box edges).box p s).z ^ 2 := Real.sq_sqrt (by positivity)
  field_simp
  linarith

/-- The sum over the triangles is a quadratic form of the bins. -/
theorem triangles_gram (box : Option (Vec ℝ)) (edges : List ℝ) (l : Nat) (all : List (Obj ℝ)) (hw : ∀ o ∈ all, 0 ≤ o.w) :
    ∃ Q : List (ℝ × (Nat → ℝ)), (∀ q ∈ Q, 0 ≤ q.1) ∧
      ∀ b1 b2, Triangles box edges l all b1 b2 = (Q.map fun q => q.1 * (q.2 b1 * q.2 b2)).sum := by
  obtain ⟨Fs, hF⟩ := leg_gram l
  refine ⟨all.flatMap fun p => Fs.map fun F => (p.w, fun b => ((all.filter fun j => decide (Tpcf.InBin edges b
    (Tpcf.sep (Ylm.tpcfEnv box edges) p j))).map fun j => j.w * F (Tpcf.dir (Ylm.tpcfEnv box edges) p j)).sum), ?_, ?_⟩
  · intro q hq
    obtain ⟨p, hp, hq⟩ := List.mem_flatMap.mp hq
    obtain ⟨F, _, rfl⟩ := List.mem_map.mp hq
    exact hw p hp
  · intro b1 b2
    rw [List.map_flatMap, sum_flatMap']
    unfold Triangles Tpcf.triangles
    congr 1
    apply List.map_congr_left
    intro p _
    rw [List.map_map]
    have key := fun J K : List (Obj ℝ) => gram_sum J K (Fs.map fun F => fun j : Obj ℝ => j.w * F (Tpcf.dir (Ylm.tpcfEnv box edges) p j))
    have e := key (all.filter fun j => decide (Tpcf.InBin edges b1 (Tpcf.sep (Ylm.tpcfEnv box edges) p j)))
      (all.filter fun j => decide (Tpcf.InBin edges b2 (Tpcf.sep (Ylm.tpcfEnv box edges) p j)))
    simp only [List.map_map, Function.comp_def] at e ⊢
    rw [List.sum_map_mul_left, ← e, ← List.sum_map_mul_left]
    congr 1
    apply List.map_congr_left
    intro j hj
    rw [← List.sum_map_mul_left]
    congr 1
    apply List.map_congr_left
    intro k hk
    have hj' := of_decide_eq_true (List.mem_filter.mp hj).2
    have hk' := of_decide_eq_true (List.mem_filter.mp hk).2
    rw [hF _ _ (dir_unit box edges p j hj'.1) (dir_unit box edges p k hk'.1), ← List.sum_map_mul_left, ← List.sum_map_mul_left]
    congr 1
    apply List.map_congr_left
    intro F _
    ring

theorem quad_nonneg (Q : List (ℝ × (Nat → ℝ))) (hQ : ∀ q ∈ Q, 0 ≤ q.1) (b : Nat) : 0 ≤ (Q.map fun q => q.1 * (q.2 b * q.2 b)).sum := by
  apply List.sum_nonneg
  intro x hx
  obtain ⟨q, hq, rfl⟩ := List.mem_map.mp hx
  exact mul_nonneg (hQ q hq) (mul_self_nonneg _)

theorem quad_cs (Q : List (ℝ × (Nat → ℝ))) (hQ : ∀ q ∈ Q, 0 ≤ q.1) (b1 b2 : Nat) : (Q.map fun q => q.1 * (q.2 b1 * q.2 b2)).sum ^ 2 ≤
    (Q.map fun q => q.1 * (q.2 b1 * q.2 b1)).sum * (Q.map fun q => q.1 * (q.2 b2 * q.2 b2)).sum := by
  induction Q with
  | nil => simp
  | cons q Q ih =>
    have hQ' : ∀ r ∈ Q, 0 ≤ r.1 := fun r hr => hQ r (List.mem_cons_of_mem _ hr)
    have ih := ih hQ'
    have n1 := quad_nonneg Q hQ' b1
    have n2 := quad_nonneg Q hQ' b2
    have hq := hQ q List.mem_cons_self
    simp only [List.map_cons, List.sum_cons]
    generalize (Q.map fun q => q.1 * (q.2 b1 * q.2 b2)).sum = S at *
    generalize (Q.map fun q => q.1 * (q.2 b1 * q.2 b1)).sum = X at *
    generalize (Q.map fun q => q.1 * (q.2 b2 * q.2 b2)).sum = Y at *
    generalize q.2 b1 = x at *
    generalize q.2 b2 = y at *
    generalize q.1 = a at *
    have hxy : 0 ≤ X * y ^ 2 + Y * x ^ 2 := by positivity
    have h2 : (2 * S * (x * y)) ^ 2 ≤ (X * y ^ 2 + Y * x ^ 2) ^ 2 := by
      have : S ^ 2 * (x * y) ^ 2 ≤ X * Y * (x * y) ^ 2 := mul_le_mul_of_nonneg_right ih (sq_nonneg _)
      nlinarith [sq_nonneg (X * y ^ 2 - Y * x ^ 2)]
    have h3 := (abs_le_of_sq_le_sq' h2 hxy).2
    nlinarith [mul_le_mul_of_nonneg_left h3 hq]

/-- **C144** The diagonal of every multipole is not negative, and the correlation of two bins is bounded by their variances, if no weight is
negative. -/
theorem multipoles_cauchy {box : Option (Vec ℝ)} {edges : List ℝ} {poles : List Nat} {all : List (Obj ℝ)} {r : Result ℝ}
    (h : Multipoles box edges poles all r) (hw : ∀ o ∈ all, 0 ≤ o.w) : ∀ x ∈ r, ∀ b1 b2, b1 + 1 < edges.length → b2 + 1 < edges.length →
      0 ≤ x.2 b1 b1 ∧ x.2 b1 b2 ^ 2 ≤ x.2 b1 b1 * x.2 b2 b2 := by
  intro x hx b1 b2 h1 h2
  obtain ⟨Q, hQ, e⟩ := triangles_gram box edges x.1 all hw
  have n1 := quad_nonneg Q hQ b1
  have cs := quad_cs Q hQ b1 b2
  rw [← e] at n1
  rw [← e, ← e, ← e] at cs
  have a11 := h.2 x hx b1 b1 h1 h1
  have a12 := h.2 x hx b1 b2 h1 h2
  have a22 := h.2 x hx b2 b2 h2 h2
  have hp : (0 : ℝ) < (4 * Real.pi) ^ 2 := by positivity
  have hl : (0 : ℝ) < 2 * (x.1 : ℝ) + 1 := by positivity
  generalize Triangles box edges x.1 all b1 b1 = T11 at *
  generalize Triangles box edges x.1 all b1 b2 = T12 at *
  generalize Triangles box edges x.1 all b2 b2 = T22 at *
  generalize (4 * Real.pi) ^ 2 = P at *
  constructor
  · by_contra hc
    have : P * x.2 b1 b1 < 0 := mul_neg_of_pos_of_neg hp (not_le.mp hc)
    rw [a11] at this
    exact absurd this (not_lt.mpr (mul_nonneg hl.le n1))
  · have : (P * x.2 b1 b2) ^ 2 ≤ (P * x.2 b1 b1) * (P * x.2 b2 b2) := by
      rw [a11, a12, a22]
      nlinarith [mul_le_mul_of_nonneg_left cs (sq_nonneg (2 * (x.1 : ℝ) + 1))]
    have h3 : P ^ 2 * x.2 b1 b2 ^ 2 ≤ P ^ 2 * (x.2 b1 b1 * x.2 b2 b2) := by nlinarith
    exact le_of_mul_le_mul_left h3 (by positivity)

theorem leg_self (l : Nat) (u : Vec ℝ) (hu : Ylm.Unit3 u.x u.y u.z) : leg l u u = 1 := by
  unfold leg
  rw [show u.x * u.x + u.y * u.y + u.z * u.z = 1 by have := hu; unfold Ylm.Unit3 at this; linarith]
  exact Ylm.legendre_one l

/-- The Legendre polynomials of angles are at most one. -/
theorem leg_le (l : Nat) (u v : Vec ℝ) (hu : Ylm.Unit3 u.x u.y u.z) (hv : Ylm.Unit3 v.x v.y v.z) : |leg l u v| ≤ 1 := by
  obtain ⟨Fs, hF⟩ := leg_gram l
  have cs := quad_cs (Fs.map fun F => (1, fun b => if b = 0 then F u else F v)) (fun q hq => by
    obtain ⟨F, _, rfl⟩ := List.mem_map.mp hq
    exact zero_le_one) 0 1
  simp only [List.map_map, Function.comp_def, one_mul, if_true, if_neg one_ne_zero] at cs
  rw [← hF u v hu hv, ← hF u u hu hu, ← hF v v hv hv, leg_self l u hu, leg_self l v hv] at cs
  rw [one_mul] at cs
  exact abs_le_one_iff_mul_self_le_one.mpr (by nlinarith)

/-- The sums over triangles of any degree are bounded by the number of triangles. -/
theorem triangles_bound (box : Option (Vec ℝ)) (edges : List ℝ) (l : Nat) (all : List (Obj ℝ)) (hw : ∀ o ∈ all, 0 ≤ o.w) (b1 b2 : Nat) :
    |Triangles box edges l all b1 b2| ≤ Triangles box edges 0 all b1 b2 := by
  have habs : ∀ {α : Type} (J : List α) (F G : α → ℝ), (∀ j ∈ J, |F j| ≤ G j) → |(J.map F).sum| ≤ (J.map G).sum := by
    intro α J F G hJ
    induction J with
    | nil => simp
    | cons j J ih =>
      simp only [List.map_cons, List.sum_cons]
      exact (abs_add_le _ _).trans (add_le_add (hJ j List.mem_cons_self) (ih fun i hi => hJ i (List.mem_cons_of_mem _ hi)))
  unfold Triangles Tpcf.triangles
  refine habs _ _ _ fun p hp => habs _ _ _ fun j hj => habs _ _ _ fun k hk => ?_
  obtain ⟨hj, hj'⟩ := List.mem_filter.mp hj
  obtain ⟨hk, hk'⟩ := List.mem_filter.mp hk
  have hj' := of_decide_eq_true hj'
  have hk' := of_decide_eq_true hk'
  have hn : 0 ≤ p.w * j.w * k.w := mul_nonneg (mul_nonneg (hw p hp) (hw j hj)) (hw k hk)
  have h0 : leg 0 (Tpcf.dir (Ylm.tpcfEnv box edges) p j) (Tpcf.dir (Ylm.tpcfEnv box edges) p k) = 1 := by simp [leg, Ylm.legendre]
  rw [h0, abs_mul, abs_of_nonneg hn]
  exact mul_le_mul_of_nonneg_left (leg_le l _ _ (dir_unit box edges p j hj'.1) (dir_unit box edges p k hk'.1)) hn

/-- **C144** No multipole exceeds `2 l + 1` times the monopole, and the monopole is not negative, if no weight is negative. -/
theorem multipoles_bound {box : Option (Vec ℝ)} {edges : List ℝ} {poles : List Nat} {all : List (Obj ℝ)} {r : Result ℝ}
    (h : Multipoles box edges poles all r) (hw : ∀ o ∈ all, 0 ≤ o.w) : ∀ x ∈ r, ∀ y ∈ r, y.1 = 0 →
      ∀ b1 b2, b1 + 1 < edges.length → b2 + 1 < edges.length → |x.2 b1 b2| ≤ (2 * x.1 + 1) * y.2 b1 b2 := by
  intro x hx y hy h0 b1 b2 h1 h2
  have ax := h.2 x hx b1 b2 h1 h2
  have ay := h.2 y hy b1 b2 h1 h2
  rw [h0] at ay
  have hb := triangles_bound box edges x.1 all hw b1 b2
  have hp : (0 : ℝ) < (4 * Real.pi) ^ 2 := by positivity
  have hl : (0 : ℝ) < 2 * (x.1 : ℝ) + 1 := by positivity
  refine le_of_mul_le_mul_left (a := (4 * Real.pi) ^ 2) ?_ hp
  rw [← abs_of_pos hp, ← abs_mul, abs_of_pos hp, ax, abs_mul, abs_of_pos hl]
  have : (4 * Real.pi) ^ 2 * ((2 * (x.1 : ℝ) + 1) * y.2 b1 b2) = (2 * (x.1 : ℝ) + 1) * Triangles box edges 0 all b1 b2 := by
    linear_combination (2 * (x.1 : ℝ) + 1) * ay
  rw [this]
  exact mul_le_mul_of_nonneg_left hb hl.le

/-- What the signs of the weights imply for a result: symmetric matrices, diagonals that are not negative, bounds. -/
structure Bounded (nedges : Nat) (r : Result ℝ) : Prop where
  symm : ∀ x ∈ r, ∀ b1 b2, b1 + 1 < nedges → b2 + 1 < nedges → x.2 b1 b2 = x.2 b2 b1
  diag : ∀ x ∈ r, ∀ b, b + 1 < nedges → 0 ≤ x.2 b b
  cross : ∀ x ∈ r, ∀ b1 b2, b1 + 1 < nedges → b2 + 1 < nedges → x.2 b1 b2 ^ 2 ≤ x.2 b1 b1 * x.2 b2 b2
  mono : ∀ x ∈ r, ∀ y ∈ r, y.1 = 0 → ∀ b1 b2, b1 + 1 < nedges → b2 + 1 < nedges → |x.2 b1 b2| ≤ (2 * x.1 + 1) * y.2 b1 b2

theorem multipoles_bounded {box : Option (Vec ℝ)} {edges : List ℝ} {poles : List Nat} {all : List (Obj ℝ)} {r : Result ℝ}
    (h : Multipoles box edges poles all r) (hw : ∀ o ∈ all, 0 ≤ o.w) : Bounded edges.length r :=
  ⟨multipoles_symm h, fun x hx b hb => (multipoles_cauchy h hw x hx b b hb hb).1, fun x hx b1 b2 h1 h2 => (multipoles_cauchy h hw x hx b1 b2 h1 h2).2,
    multipoles_bound h hw⟩

/-- **C144** The bounds for boxes, with weights that are not negative. -/
theorem box_bounded {c : BoxCall} {poles : List Nat} {edges : List ℝ} {per : Bool} {L : Vec ℝ} {D : List (List (Obj ℝ))}
    (h : c.Fits edges per L D) (hb : Binning poles edges) (hw : ∀ o ∈ D.flatten, 0 ≤ o.w) :
    ∃ out, c.out poles edges per = .ok out ∧ Bounded edges.length out.poles := by
  obtain ⟨out, e, hm⟩ := h.spec hb
  refine ⟨out, e, multipoles_bounded hm fun o ho => ?_⟩
  cases per with
  | false => exact hw o ho
  | true =>
    obtain ⟨q, hq, rfl⟩ := List.mem_map.mp ho
    exact hw q hq

/-- **C144** The bounds for surveys, with weights that are not negative. -/
theorem sky_bounded {c : SkyCall} {poles : List Nat} {edges : List ℝ} {D : List (List (SurvPairs.Obj × ℝ))}
    (h : c.Fits D) (hb : Binning poles edges) (hw : ∀ o ∈ D.flatten, 0 ≤ o.2) :
    ∃ out, c.out poles edges = .ok out ∧ Bounded edges.length out.poles := by
  obtain ⟨out, e, hm⟩ := h.spec hb
  refine ⟨out, e, multipoles_bounded hm fun o ho => ?_⟩
  obtain ⟨q, hq, rfl⟩ := List.mem_map.mp ho
  exact hw q hq

end NBK.TpcfObj
