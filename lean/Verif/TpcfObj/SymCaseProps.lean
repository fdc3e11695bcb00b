import Verif.TpcfObj.SkySymProps
import Verif.TpcfObj.CaseProps
import Mathlib.Tactic.NormNum

set_option linter.unusedSimpArgs false

/-! C144: calls that meet the hypotheses, and separations of half the box. -/
noncomputable section
namespace NBK.TpcfObj
open Tpcf (Vec Obj Result)

/-- The call on given objects, one slab per rank. -/
def boxCall (L : Vec ℝ) (D : List (List (Obj ℝ))) : BoxCall where
  enum := oneBunch
  np := (D.length, 1, 1)
  src := ⟨[("Position", D.map fun l => l.map (·.pos))], [("Weight", D.map fun l => l.map (·.w))], some (.vec [L.x, L.y, L.z])⟩
  size := none
  weight := "Weight"
  position := "Position"

theorem zipWith_maps {α β γ δ : Type} (F : β → γ → δ) (g : α → β) (h : α → γ) (l : List α) :
    List.zipWith F (l.map g) (l.map h) = l.map fun a => F (g a) (h a) := by
  induction l with
  | nil => rfl
  | cons a l ih => simp [ih]

theorem boxCall_fits {edges : List ℝ} {per : Bool} {L : Vec ℝ} {D : List (List (Obj ℝ))} (hx : 0 < L.x) (hy : 0 < L.y) (hz : 0 < L.z)
    (hmax : per = true → SurvPairs.maxOf edges ≤ 0.5 * boxMin L) (hD : 0 < D.length) (hN : D.flatten = [] ∨ 9 * D.length < D.flatten.length) :
    (boxCall L D).Fits edges per L D where
  kd := oneBunch_ok
  cols := by
    refine ⟨_, _, rfl, rfl, ?_⟩
    unfold rows
    rw [zipWith_maps]
    simp only [zipWith_maps]
    simp
  box := (box_spec L.x L.y L.z 1 (fun h => by have := congrArg Vec.x h; simp at this; linarith) one_ne_zero).1
  hx := hx
  hy := hy
  hz := hz
  hmax := hmax
  ranks := hD
  grid := by simp [boxCall]
  load := hN

/-- The moved objects of the case, on as many ranks. -/
def exMoved (f : Vec ℝ → Vec ℝ) (k : ℝ) : List (List (Obj ℝ)) := exRows.map fun l => l.map (move f k)

theorem exMoved_perm (f : Vec ℝ → Vec ℝ) (k : ℝ) : (exMoved f k).flatten.Perm (exRows.flatten.map (move f k)) := by
  rw [exMoved, List.map_flatten]

theorem ex_fits (per : Bool) : (boxCall ⟨10, 10, 10⟩ exRows).Fits [1 / 2, 3 / 2] per ⟨10, 10, 10⟩ exRows :=
  boxCall_fits (by norm_num) (by norm_num) (by norm_num) (fun _ => by rw [ex_max]; simp [boxMin]; norm_num) (by simp [exRows])
    (Or.inr (by simp [exRows]))

theorem exMoved_fits (per : Bool) (f : Vec ℝ → Vec ℝ) (k : ℝ) :
    (boxCall ⟨10, 10, 10⟩ (exMoved f k)).Fits [1 / 2, 3 / 2] per ⟨10, 10, 10⟩ (exMoved f k) :=
  boxCall_fits (by norm_num) (by norm_num) (by norm_num) (fun _ => by rw [ex_max]; simp [boxMin]; norm_num) (by simp [exMoved, exRows])
    (Or.inr (by simp [exMoved, exRows]))

/-- The hypotheses of `periodic_shift` are met. -/
theorem shift_case : (boxCall ⟨10, 10, 10⟩ exRows).Relates (boxCall ⟨10, 10, 10⟩ (exMoved (fun v => ⟨v.x + 3, v.y + -20, v.z + 1 / 3⟩) 1)) [0, 2]
    [1 / 2, 3 / 2] [1 / 2, 3 / 2] true 1 :=
  periodic_shift ⟨3, -20, 1 / 3⟩ (ex_fits true) (exMoved_fits true _ _) ex_binning (exMoved_perm _ _)

/-- The hypotheses of `periodic_mirror_partial` are met. -/
theorem mirror_case : (boxCall ⟨10, 10, 10⟩ exRows).Relates (boxCall ⟨10, 10, 10⟩ (exMoved (mirror (true, false, true)) 1)) [0, 2]
    [1 / 2, 3 / 2] [1 / 2, 3 / 2] true 1 :=
  periodic_mirror_partial (true, false, true) (ex_fits true) (exMoved_fits true _ _) ex_binning
    (by rw [ex_max]; simp [boxMin]; norm_num) (exMoved_perm _ _)

/-- The hypotheses of `periodic_axes` are met. -/
theorem axes_case : (boxCall ⟨10, 10, 10⟩ exRows).Relates (boxCall ⟨10, 10, 10⟩ (exMoved (axes true) 1)) [0, 2] [1 / 2, 3 / 2] [1 / 2, 3 / 2] true 1 :=
  periodic_axes true (ex_fits true) (by have := exMoved_fits true (axes true) 1; simpa [axes] using this) ex_binning (exMoved_perm _ _)

/-- The hypotheses of `box_weights` are met. -/
theorem weights_case : (boxCall ⟨10, 10, 10⟩ exRows).Relates (boxCall ⟨10, 10, 10⟩ (exMoved id (-2))) [0, 2] [1 / 2, 3 / 2] [1 / 2, 3 / 2] false
    ((-2) ^ 3) :=
  box_weights (-2) (ex_fits false) (exMoved_fits false _ _) ex_binning (exMoved_perm _ _)

theorem scaled_edges : ([1 / 2, 3 / 2] : List ℝ).map ((2 : ℝ) * ·) = [1, 3] := by norm_num

theorem ex_binning' : Binning [0, 2] [1, 3] := by
  refine ⟨by simp, by simp, by simp, ?_, ?_⟩
  · simp
  · intro e he
    simp only [List.mem_cons, List.not_mem_nil, or_false] at he
    rcases he with rfl | rfl <;> norm_num

theorem ex_max' : SurvPairs.maxOf [1, 3] = (3 : ℝ) := by
  simp only [SurvPairs.maxOf, List.foldl_cons, List.foldl_nil]
  norm_num

/-- The hypotheses of `periodic_units` are met. -/
theorem units_case : (boxCall ⟨10, 10, 10⟩ exRows).Relates (boxCall ⟨20, 20, 20⟩ (exMoved (fun v => ⟨2 * v.x, 2 * v.y, 2 * v.z⟩) 1)) [0, 2]
    [1 / 2, 3 / 2] (([1 / 2, 3 / 2] : List ℝ).map ((2 : ℝ) * ·)) true 1 := by
  refine periodic_units two_pos (ex_fits true) ?_ ex_binning (by rw [scaled_edges]; exact ex_binning') (exMoved_perm _ _)
  rw [scaled_edges, show (2 * 10 : ℝ) = 20 by norm_num]
  exact boxCall_fits (by norm_num) (by norm_num) (by norm_num) (fun _ => by rw [ex_max']; simp [boxMin]; norm_num) (by simp [exMoved, exRows])
    (Or.inr (by simp [exMoved, exRows]))

/-- A rotation about the third axis, moved and scaled, is a similarity. -/
theorem similar_case : Similar 2 fun v => ⟨-2 * v.y + 5, 2 * v.x, 2 * v.z - 1⟩ := by
  intro u v w
  simp only [dot]
  ring

/-- The hypotheses of `open_similar` are met. -/
theorem open_case : (boxCall ⟨10, 10, 10⟩ exRows).Relates (boxCall ⟨1, 1, 1⟩ (exMoved (fun v => ⟨-2 * v.y + 5, 2 * v.x, 2 * v.z - 1⟩) 1)) [0, 2]
    [1 / 2, 3 / 2] (([1 / 2, 3 / 2] : List ℝ).map ((2 : ℝ) * ·)) false 1 :=
  open_similar two_pos similar_case (ex_fits false)
    (boxCall_fits (by norm_num) (by norm_num) (by norm_num) (fun h => by cases h) (by simp [exMoved, exRows]) (Or.inr (by simp [exMoved, exRows])))
    ex_binning (by rw [scaled_edges]; exact ex_binning') (exMoved_perm _ _)

/-- The hypotheses of `box_zero` are met. -/
theorem zero_case : (boxCall ⟨10, 10, 10⟩ exRows).Relates (boxCall ⟨10, 10, 10⟩ (exRows ++ [List.replicate 10 ⟨exB, 0⟩])) [0, 2]
    [1 / 2, 3 / 2] [1 / 2, 3 / 2] true 1 :=
  box_zero (List.replicate 10 ⟨exB, 0⟩) (ex_fits true)
    (boxCall_fits (by norm_num) (by norm_num) (by norm_num) (fun _ => by rw [ex_max]; simp [boxMin]; norm_num) (by simp [exRows])
      (Or.inr (by simp [exRows]))) ex_binning (fun o ho => by rw [List.eq_of_mem_replicate ho]) (by simp [List.flatten_append])

/-- The hypotheses of `box_copies` are met. -/
theorem copies_case : (boxCall ⟨10, 10, 10⟩ exRows).Relates (boxCall ⟨10, 10, 10⟩ (exRows ++ exRows ++ exRows)) [0, 2]
    [1 / 2, 3 / 2] [1 / 2, 3 / 2] true ((3 : Nat) ^ 3) :=
  box_copies 3 (ex_fits true)
    (boxCall_fits (by norm_num) (by norm_num) (by norm_num) (fun _ => by rw [ex_max]; simp [boxMin]; norm_num) (by simp [exRows])
      (Or.inr (by simp [exRows]))) ex_binning (by simp [List.flatten_append, List.replicate_succ])

/-- The hypotheses of `box_bounded` are met. -/
theorem bounded_case : ∃ out, (boxCall ⟨10, 10, 10⟩ exRows).out [0, 2] [1 / 2, 3 / 2] true = .ok out ∧ Bounded 2 out.poles :=
  box_bounded (ex_fits true) ex_binning (fun o ho => by
    simp only [exRows, List.flatten_cons, List.flatten_nil, List.append_nil, List.mem_append, List.mem_replicate] at ho
    rcases ho with ⟨_, rfl⟩ | ⟨_, rfl⟩ <;> norm_num)

/-! ### Surveys -/

/-- The call on given rows of the sky, all owned by the first rank. -/
def skyCall (dist : ℝ → ℝ) (D : List (List (SurvPairs.Obj × ℝ))) : SkyCall where
  enum := oneBunch
  np := fun _ => 1
  rank := fun _ _ _ => 0
  src := ⟨[], [("RA", D.map fun l => l.map (·.1.ra)), ("DEC", D.map fun l => l.map (·.1.dec)), ("Redshift", D.map fun l => l.map (·.1.redshift)),
    ("Weight", D.map fun l => l.map (·.2))], none⟩
  dist := dist
  factor := 1
  ra := "RA"
  dec := "DEC"
  redshift := "Redshift"
  weight := "Weight"

theorem skyCall_fits {dist : ℝ → ℝ} {D : List (List (SurvPairs.Obj × ℝ))} (h0 : ∀ l ∈ D, ∀ o ∈ l, o.1.weight = 0) (hD : 0 < D.length)
    (hN : D.flatten = [] ∨ 9 * D.length < D.flatten.length) : (skyCall dist D).Fits D where
  kd := oneBunch_ok
  cols := by
    refine ⟨_, _, _, _, rfl, rfl, rfl, rfl, ?_⟩
    have hz : ∀ {β γ : Type} (g : SurvPairs.Obj × ℝ → β) (h : SurvPairs.Obj × ℝ → γ) (l : List (SurvPairs.Obj × ℝ)),
        List.zip (l.map g) (l.map h) = l.map fun a => (g a, h a) := fun g h l => zipWith_maps _ g h l
    unfold skyRows
    rw [zipWith_maps, zipWith_maps, zipWith_maps]
    refine Eq.trans (List.map_congr_left (g := id) fun l hl => ?_) (List.map_id D)
    rw [hz, hz, zipWith_maps]
    refine Eq.trans (List.map_congr_left (g := id) fun o ho => ?_) (List.map_id l)
    have := h0 l hl o ho
    obtain ⟨⟨a, b, c, d⟩, e⟩ := o
    dsimp only at this
    rw [this]
    rfl
  ranks := fun _ _ _ => hD
  load := hN

/-- Objects at two places of the sky. -/
def skyRowsEx : List (List (SurvPairs.Obj × ℝ)) := [List.replicate 6 (⟨10, 20, 1, 0⟩, 2) ++ List.replicate 6 (⟨11, 20, 1, 0⟩, 3)]

/-- The rows of the case after a change of the objects and weights. -/
def skyRowsMoved (f : SurvPairs.Obj → SurvPairs.Obj) (k : ℝ) : List (List (SurvPairs.Obj × ℝ)) := skyRowsEx.map fun l => l.map fun o => (f o.1, k * o.2)

theorem skyEx_fits (dist : ℝ → ℝ) : (skyCall dist skyRowsEx).Fits skyRowsEx :=
  skyCall_fits (by
    intro l hl o ho
    simp only [skyRowsEx, List.mem_singleton] at hl
    subst hl
    simp only [List.mem_append, List.mem_replicate] at ho
    rcases ho with ⟨_, rfl⟩ | ⟨_, rfl⟩ <;> rfl) (by simp [skyRowsEx]) (Or.inr (by simp [skyRowsEx]))

theorem skyMoved_fits (dist : ℝ → ℝ) (f : SurvPairs.Obj → SurvPairs.Obj) (hf : ∀ o, (f o).weight = o.weight) (k : ℝ) :
    (skyCall dist (skyRowsMoved f k)).Fits (skyRowsMoved f k) :=
  skyCall_fits (by
    intro l hl o ho
    simp only [skyRowsMoved, skyRowsEx, List.map_cons, List.map_nil, List.mem_singleton] at hl
    subst hl
    simp only [List.map_append, List.map_replicate, List.mem_append, List.mem_replicate] at ho
    rcases ho with ⟨_, rfl⟩ | ⟨_, rfl⟩ <;> simp [hf]) (by simp [skyRowsMoved, skyRowsEx]) (Or.inr (by simp [skyRowsMoved, skyRowsEx]))

/-- The hypotheses of `sky_rotated` are met: the sky is mirrored. -/
theorem rotated_case : (skyCall (fun z => 1000 * z) skyRowsEx).Relates
    (skyCall (fun z => 1000 * z) (skyRowsMoved (SurvTpcf.rotated fun v => ⟨v.y, -v.z, v.x⟩) 1)) [0, 2] [1 / 2, 3 / 2] [1 / 2, 3 / 2] 1 :=
  sky_rotated (R := fun v => ⟨v.y, -v.z, v.x⟩) (fun u v => by simp only [Sky.Vec.dot]; ring) (skyEx_fits _) (skyMoved_fits _ (SurvTpcf.rotated _) (fun _ => rfl) 1)
    ex_binning rfl (by rw [skyRowsMoved, List.map_flatten]; simp [one_mul])

/-- The hypotheses of `sky_units` are met. -/
theorem sky_units_case : (skyCall (fun z => 1000 * z) skyRowsEx).Relates (skyCall (fun z => 2 * (1000 * z)) skyRowsEx) [0, 2] [1 / 2, 3 / 2]
    (([1 / 2, 3 / 2] : List ℝ).map ((2 : ℝ) * ·)) 1 :=
  sky_units two_pos (skyEx_fits _) (skyEx_fits _) ex_binning (by rw [scaled_edges]; exact ex_binning') (fun _ => rfl) (List.Perm.refl _)

/-- The hypotheses of `sky_weights` are met. -/
theorem sky_weights_case : (skyCall (fun z => 1000 * z) skyRowsEx).Relates (skyCall (fun z => 1000 * z) (skyRowsMoved id (-1))) [0, 2]
    [1 / 2, 3 / 2] [1 / 2, 3 / 2] ((-1) ^ 3) :=
  sky_weights (-1) (skyEx_fits _) (skyMoved_fits _ id (fun _ => rfl) (-1)) ex_binning rfl (by rw [skyRowsMoved, List.map_flatten]; simp only [id]; exact List.Perm.refl _)

/-! ### Separations of half the box -/

/-- Objects on the first axis. -/
def onAxis (x w : ℝ) : Obj ℝ := ⟨⟨x, 0, 0⟩, w⟩

theorem axis_w (x w : ℝ) : (onAxis x w).w = w := rfl

def halfEdges : List ℝ := [0, 1 / 2, 1]

def halfEnv : Tpcf.Env ℝ := Ylm.tpcfEnv (some ⟨2, 2, 2⟩) halfEdges

theorem axis_dpos (a b u v : ℝ) : Tpcf.dposOf (some ⟨2, 2, 2⟩) (onAxis a u) (onAxis b v) = ⟨Tpcf.wrapAxis 2 (b - a), 0, 0⟩ := by
  have h : Tpcf.wrapAxis (2 : ℝ) 0 = 0 := by norm_num [Tpcf.wrapAxis]
  simp only [Tpcf.dposOf, onAxis, sub_self, h]

theorem axis_sep (a b u v : ℝ) : Tpcf.sep halfEnv (onAxis a u) (onAxis b v) = |Tpcf.wrapAxis 2 (b - a)| := by
  rw [halfEnv, sep_dot, axis_dpos]
  simp only [dot, mul_zero, add_zero]
  exact Real.sqrt_mul_self_eq_abs _

theorem axis_leg (a b c u v w : ℝ) : leg 1 (Tpcf.dir halfEnv (onAxis a u) (onAxis b v)) (Tpcf.dir halfEnv (onAxis a u) (onAxis c w)) =
    Tpcf.wrapAxis 2 (b - a) * Tpcf.wrapAxis 2 (c - a) / (|Tpcf.wrapAxis 2 (b - a)| * |Tpcf.wrapAxis 2 (c - a)|) := by
  rw [halfEnv, leg_dot, ← halfEnv, axis_sep, axis_sep, axis_dpos, axis_dpos]
  simp [dot, Ylm.legendre]

/-- The triangles of three objects on an axis. -/
theorem axis_triangles (a b c : ℝ) : Triangles (some ⟨2, 2, 2⟩) halfEdges 1 [onAxis a 1, onAxis b 1, onAxis c 1] 0 1 =
    Tpcf.triangles halfEnv (leg 1) [onAxis a 1, onAxis b 1, onAxis c 1] [onAxis a 1, onAxis b 1, onAxis c 1] 0 1 := rfl

theorem half_before : Triangles (some ⟨2, 2, 2⟩) halfEdges 1 [onAxis 0 1, onAxis 1 1, onAxis (1 / 4) 1] 0 1 = 0 := by
  rw [axis_triangles]
  have hE : halfEnv.edges = [0, 1 / 2, 1] := rfl
  simp only [Tpcf.triangles, hE, List.map_cons, List.map_nil, List.filter_cons, List.filter_nil, axis_sep]
  norm_num [Tpcf.InBin, Tpcf.wrapAxis, axis_leg, abs_of_pos, abs_of_neg, axis_w]

theorem half_after : Triangles (some ⟨2, 2, 2⟩) halfEdges 1 [onAxis 0 1, onAxis 1 1, onAxis (7 / 4) 1] 0 1 = -2 := by
  rw [axis_triangles]
  have hE : halfEnv.edges = [0, 1 / 2, 1] := rfl
  simp only [Tpcf.triangles, hE, List.map_cons, List.map_nil, List.filter_cons, List.filter_nil, axis_sep]
  norm_num [Tpcf.InBin, Tpcf.wrapAxis, axis_leg, abs_of_pos, abs_of_neg, axis_w]

/-- Three objects, two of them half the box apart, and seven without weight. -/
def halfRows (x y : ℝ) : List (List (Obj ℝ)) := [[onAxis 0 1, onAxis x 1, onAxis y 1] ++ List.replicate 7 (onAxis 0 0)]

theorem half_binning : Binning [1] halfEdges := by
  refine ⟨by simp, by simp, by simp [halfEdges], ?_, ?_⟩
  · simp [halfEdges]; norm_num
  · intro e he
    simp only [halfEdges, List.mem_cons, List.not_mem_nil, or_false] at he
    rcases he with rfl | rfl | rfl <;> norm_num

theorem half_fits (x y : ℝ) : (boxCall ⟨2, 2, 2⟩ (halfRows x y)).Fits halfEdges true ⟨2, 2, 2⟩ (halfRows x y) :=
  boxCall_fits (by norm_num) (by norm_num) (by norm_num)
    (fun _ => by simp only [halfEdges, SurvPairs.maxOf, List.foldl_cons, List.foldl_nil, boxMin]; norm_num)
    (by simp [halfRows]) (Or.inr (by simp [halfRows]))

theorem half_images (x y x' y' : ℝ) (hx : wrap 2 x = x') (hy : wrap 2 y = y') (l b1 b2 : Nat) :
    Triangles (some ⟨2, 2, 2⟩) halfEdges l (images ⟨2, 2, 2⟩ true (halfRows x y).flatten) b1 b2 =
      Triangles (some ⟨2, 2, 2⟩) halfEdges l [onAxis 0 1, onAxis x' 1, onAxis y' 1] b1 b2 := by
  have h0 : wrap (2 : ℝ) 0 = 0 := by simp [wrap]
  have e : images ⟨2, 2, 2⟩ true (halfRows x y).flatten = [onAxis 0 1, onAxis x' 1, onAxis y' 1] ++ List.replicate 7 (onAxis 0 0) := by
    simp only [images_true, halfRows, List.flatten_cons, List.flatten_nil, List.append_nil, List.map_append, List.map_cons, List.map_nil,
      List.map_replicate, onAxis, wrapVec, h0, hx, hy]
  rw [e]
  exact triangles_zero _ _ _ _ _ (fun o ho => by rw [List.eq_of_mem_replicate ho]; rfl) _ _

/-- **C144 fails** for mirror images if an edge is half the box: the vector to an object half the box away always points along the positive axis. -/
theorem mirror_half : ∃ (c c' : BoxCall) (D D' : List (List (Obj ℝ))), c.Fits halfEdges true ⟨2, 2, 2⟩ D ∧ c'.Fits halfEdges true ⟨2, 2, 2⟩ D' ∧
    Binning [1] halfEdges ∧ D'.flatten.Perm (D.flatten.map (move (mirror (true, false, false)) 1)) ∧
      ¬ c.Relates c' [1] halfEdges halfEdges true 1 := by
  refine ⟨boxCall ⟨2, 2, 2⟩ (halfRows 1 (1 / 4)), boxCall ⟨2, 2, 2⟩ (halfRows (-1) (-(1 / 4))), _, _, half_fits _ _, half_fits _ _, half_binning, ?_, ?_⟩
  · simp [halfRows, move, mirror, onAxis, List.replicate_succ]
  · rintro ⟨out, out', e, e', hs⟩
    obtain ⟨o1, f1, m1⟩ := (half_fits 1 (1 / 4)).spec half_binning
    obtain ⟨o2, f2, m2⟩ := (half_fits (-1) (-(1 / 4))).spec half_binning
    rw [e] at f1
    rw [e'] at f2
    cases f1
    cases f2
    have w1 : wrap 2 (1 : ℝ) = 1 := by
      have : ⌊(1 : ℝ) / 2⌋ = 0 := by rw [Int.floor_eq_iff]; norm_num
      rw [wrap, this]; norm_num
    have w2 : wrap 2 (1 / 4 : ℝ) = 1 / 4 := by
      have : ⌊(1 / 4 : ℝ) / 2⌋ = 0 := by rw [Int.floor_eq_iff]; norm_num
      rw [wrap, this]; norm_num
    have w3 : wrap 2 (-1 : ℝ) = 1 := by
      have : ⌊(-1 : ℝ) / 2⌋ = -1 := by rw [Int.floor_eq_iff]; norm_num
      rw [wrap, this]; norm_num
    have w4 : wrap 2 (-(1 / 4) : ℝ) = 7 / 4 := by
      have : ⌊(-(1 / 4) : ℝ) / 2⌋ = -1 := by rw [Int.floor_eq_iff]; norm_num
      rw [wrap, this]; norm_num
    have h := hs 0 0 1 (by simp [halfEdges]) (by simp [halfEdges])
    cases g : out.poles with
    | nil => have := m1.1; rw [g] at this; cases this
    | cons x r =>
      cases g' : out'.poles with
      | nil => have := m2.1; rw [g'] at this; cases this
      | cons y r' =>
        have p1 := m1.1
        have p2 := m2.1
        rw [g] at p1 h
        rw [g'] at p2 h
        simp only [List.map_cons, List.cons.injEq] at p1 p2
        simp only [List.getElem?_cons_zero, Option.map_some, Option.some.injEq, Prod.mk.injEq, one_mul] at h
        have a1 := m1.2 x (by rw [g]; exact List.mem_cons_self) 0 1 (by simp [halfEdges]) (by simp [halfEdges])
        have a2 := m2.2 y (by rw [g']; exact List.mem_cons_self) 0 1 (by simp [halfEdges]) (by simp [halfEdges])
        rw [p1.1, if_pos rfl, half_images _ _ _ _ w1 w2, half_before] at a1
        rw [p2.1, if_pos rfl, half_images _ _ _ _ w3 w4, half_after, h.2, a1] at a2
        norm_num at a2

end NBK.TpcfObj
