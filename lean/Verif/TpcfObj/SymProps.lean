import Verif.TpcfObj.Props
import Verif.SurvTpcf.Props
import Mathlib.Data.List.GetD
import Mathlib.Tactic.Linarith
import Mathlib.Tactic.FieldSimp
import Mathlib.Tactic.Ring
import Mathlib.Tactic.Positivity

set_option linter.unusedSimpArgs false

/-! C144: what the multipoles of the three-point function do not depend on, and how they scale. -/
noncomputable section
namespace NBK.TpcfObj
open Tpcf (Vec Obj Result)

/-- The scalar product. -/
def dot (u v : Vec ℝ) : ℝ := u.x * v.x + u.y * v.y + u.z * v.z

/-- Results with the same multipoles, whose values are `c` times those of the first one, in all bins. -/
def Scaled (nedges : Nat) (c : ℝ) (r r' : Result ℝ) : Prop :=
  ∀ i b1 b2 : Nat, b1 + 1 < nedges → b2 + 1 < nedges →
    (r'[i]?.map fun x => (x.1, x.2 b1 b2)) = r[i]?.map fun x => (x.1, c * x.2 b1 b2)

theorem multipoles_scaled {box box' : Option (Vec ℝ)} {edges edges' : List ℝ} {poles : List Nat} {all all' : List (Obj ℝ)} {r r' : Result ℝ}
    {c : ℝ} (h : Multipoles box edges poles all r) (h' : Multipoles box' edges' poles all' r') (hlen : edges'.length = edges.length)
    (ht : ∀ l b1 b2 : Nat, b1 + 1 < edges.length → b2 + 1 < edges.length →
      Triangles box' edges' l all' b1 b2 = c * Triangles box edges l all b1 b2) : Scaled edges.length c r r' := by
  intro i b1 b2 h1 h2
  have hm : r[i]?.map (·.1) = r'[i]?.map (·.1) := by rw [← List.getElem?_map, ← List.getElem?_map, h.1, h'.1]
  cases e : r[i]? with
  | none =>
    rw [e] at hm
    cases e' : r'[i]? with
    | none => rfl
    | some y => rw [e'] at hm; cases hm
  | some x =>
    rw [e] at hm
    cases e' : r'[i]? with
    | none => rw [e'] at hm; cases hm
    | some y =>
      rw [e'] at hm
      have hxy : x.1 = y.1 := by simpa using hm
      have a1 := h.2 x (List.mem_of_getElem? e) b1 b2 h1 h2
      have a2 := h'.2 y (List.mem_of_getElem? e') b1 b2 (by omega) (by omega)
      rw [ht _ _ _ h1 h2, ← hxy] at a2
      have h4 : (4 * Real.pi) ^ 2 ≠ 0 := by positivity
      have : y.2 b1 b2 = c * x.2 b1 b2 := mul_left_cancel₀ h4 (by rw [a2]; linear_combination (-c) * a1)
      simp [hxy, this]

/-! ### Sums over triangles -/

theorem triangles_all_perm (box : Option (Vec ℝ)) (edges : List ℝ) (l : Nat) {all all' : List (Obj ℝ)} (hp : all.Perm all') (b1 b2 : Nat) :
    Triangles box edges l all b1 b2 = Triangles box edges l all' b1 b2 := by
  unfold Triangles
  rw [triangles_perm _ _ hp]
  unfold Tpcf.triangles
  congr 1
  apply List.map_congr_left
  intro p _
  rw [((hp.filter _).map _).sum_eq]
  congr 1
  apply List.map_congr_left
  intro j _
  rw [((hp.filter _).map _).sum_eq]

theorem sep_dot (box : Option (Vec ℝ)) (edges : List ℝ) (p s : Obj ℝ) :
    Tpcf.sep (Ylm.tpcfEnv box edges) p s = Real.sqrt (dot (Tpcf.dposOf box p s) (Tpcf.dposOf box p s)) := by
  unfold Tpcf.sep Ylm.tpcfEnv dot
  dsimp only
  congr 1
  ring

theorem leg_dot (box : Option (Vec ℝ)) (edges : List ℝ) (l : Nat) (p j k : Obj ℝ) :
    leg l (Tpcf.dir (Ylm.tpcfEnv box edges) p j) (Tpcf.dir (Ylm.tpcfEnv box edges) p k) = (Ylm.legendre l).eval
      (dot (Tpcf.dposOf box p j) (Tpcf.dposOf box p k) /
        (Tpcf.sep (Ylm.tpcfEnv box edges) p j * Tpcf.sep (Ylm.tpcfEnv box edges) p k)) := by
  unfold leg Tpcf.dir dot
  dsimp only
  congr 1
  rw [show (Ylm.tpcfEnv box edges).box = box from rfl]
  rw [div_mul_div_comm, div_mul_div_comm, div_mul_div_comm, ← add_div, ← add_div]

theorem inBin_scaled {s : ℝ} (hs : 0 < s) (edges : List ℝ) (b : Nat) (r : ℝ) :
    Tpcf.InBin (edges.map (s * ·)) b (s * r) ↔ Tpcf.InBin edges b r := by
  have h : ∀ n, (edges.map (s * ·)).getD n 0 = s * edges.getD n 0 := fun n => by
    have := List.getD_map (f := (s * ·)) (l := edges) (d := (0 : ℝ)) (n := n)
    simpa using this
  unfold Tpcf.InBin
  rw [h, h, mul_lt_mul_iff_right₀ hs, mul_le_mul_iff_right₀ hs, mul_pos_iff_of_pos_left hs]

/-- Two catalogs of the same rows: if all separations of the second are `s` times those of the first and the weights are `c` times those, and the angles of
the triangles agree, then the sum over the triangles is `c ^ 3` times that of the first. -/
theorem triangles_rows {α : Type} {box box' : Option (Vec ℝ)} {edges : List ℝ} {s c : ℝ} (hs : 0 < s) (g f : α → Obj ℝ) (all : List α)
    (hw : ∀ o, (f o).w = c * (g o).w)
    (hsep : ∀ p j : α, dot (Tpcf.dposOf box' (f p) (f j)) (Tpcf.dposOf box' (f p) (f j)) =
      s ^ 2 * dot (Tpcf.dposOf box (g p) (g j)) (Tpcf.dposOf box (g p) (g j))) (l b1 b2 : Nat)
    (hdot : ∀ p j k : α, Tpcf.InBin edges b1 (Tpcf.sep (Ylm.tpcfEnv box edges) (g p) (g j)) →
      Tpcf.InBin edges b2 (Tpcf.sep (Ylm.tpcfEnv box edges) (g p) (g k)) →
      dot (Tpcf.dposOf box' (f p) (f j)) (Tpcf.dposOf box' (f p) (f k)) =
        s ^ 2 * dot (Tpcf.dposOf box (g p) (g j)) (Tpcf.dposOf box (g p) (g k))) :
    Triangles box' (edges.map (s * ·)) l (all.map f) b1 b2 = c ^ 3 * Triangles box edges l (all.map g) b1 b2 := by
  have hse : ∀ p j : α, Tpcf.sep (Ylm.tpcfEnv box' (edges.map (s * ·))) (f p) (f j) = s * Tpcf.sep (Ylm.tpcfEnv box edges) (g p) (g j) := by
    intro p j
    rw [sep_dot, sep_dot, hsep p j, Real.sqrt_mul (by positivity), Real.sqrt_sq hs.le]
  have hfil : ∀ b p, (all.map f).filter (fun j => decide (Tpcf.InBin (Ylm.tpcfEnv box' (edges.map (s * ·))).edges b
      (Tpcf.sep (Ylm.tpcfEnv box' (edges.map (s * ·))) (f p) j))) =
      (all.filter fun j => decide (Tpcf.InBin edges b (Tpcf.sep (Ylm.tpcfEnv box edges) (g p) (g j)))).map f := by
    intro b p
    rw [List.filter_map]
    congr 1
    apply List.filter_congr
    intro j hj
    simp only [Function.comp_apply]
    rw [hse p j]
    exact decide_eq_decide.mpr (inBin_scaled hs edges b _)
  have hfil' : ∀ b p, (all.map g).filter (fun j => decide (Tpcf.InBin (Ylm.tpcfEnv box edges).edges b
      (Tpcf.sep (Ylm.tpcfEnv box edges) (g p) j))) =
      (all.filter fun j => decide (Tpcf.InBin edges b (Tpcf.sep (Ylm.tpcfEnv box edges) (g p) (g j)))).map g := by
    intro b p
    rw [List.filter_map]
    rfl
  unfold Triangles Tpcf.triangles
  rw [List.map_map, List.map_map, ← List.sum_map_mul_left]
  congr 1
  apply List.map_congr_left
  intro p hp
  simp only [Function.comp_apply]
  rw [hfil, hfil, hfil', hfil', List.map_map, List.map_map, ← List.sum_map_mul_left]
  congr 1
  apply List.map_congr_left
  intro j hj
  have hj' := of_decide_eq_true (List.mem_filter.mp hj).2
  simp only [Function.comp_apply]
  rw [List.map_map, List.map_map, ← List.sum_map_mul_left]
  congr 1
  apply List.map_congr_left
  intro k hk
  have hk' := of_decide_eq_true (List.mem_filter.mp hk).2
  simp only [Function.comp_apply]
  rw [hw, hw, hw, leg_dot, leg_dot, hse p j, hse p k, hdot p j k hj' hk']
  generalize Tpcf.sep (Ylm.tpcfEnv box edges) (g p) (g j) = r1
  generalize Tpcf.sep (Ylm.tpcfEnv box edges) (g p) (g k) = r2
  rw [show s * r1 * (s * r2) = s ^ 2 * (r1 * r2) by ring, mul_div_mul_left _ _ (by positivity : s ^ 2 ≠ 0)]
  ring

/-- Objects of weight zero do not contribute. -/
theorem triangles_zero (box : Option (Vec ℝ)) (edges : List ℝ) (l : Nat) (all Z : List (Obj ℝ)) (hZ : ∀ o ∈ Z, o.w = 0) (b1 b2 : Nat) :
    Triangles box edges l (all ++ Z) b1 b2 = Triangles box edges l all b1 b2 := by
  have hz : ∀ (g : Obj ℝ → Bool) (F : Obj ℝ → ℝ), (∀ o, o.w = 0 → F o = 0) → ((Z.filter g).map F).sum = 0 := by
    intro g F hF
    apply List.sum_eq_zero
    intro x hx
    obtain ⟨o, ho, rfl⟩ := List.mem_map.mp hx
    exact hF o (hZ o (List.mem_filter.mp ho).1)
  have happ : ∀ (g : Obj ℝ → Bool) (F : Obj ℝ → ℝ), (∀ o, o.w = 0 → F o = 0) → (((all ++ Z).filter g).map F).sum = ((all.filter g).map F).sum := by
    intro g F hF
    rw [List.filter_append, List.map_append, List.sum_append, hz g F hF, add_zero]
  have hz' : ∀ F : Obj ℝ → ℝ, (∀ o, o.w = 0 → F o = 0) → (Z.map F).sum = 0 := by
    intro F hF
    apply List.sum_eq_zero
    intro x hx
    obtain ⟨o, ho, rfl⟩ := List.mem_map.mp hx
    exact hF o (hZ o ho)
  unfold Triangles Tpcf.triangles
  rw [List.map_append, List.sum_append]
  rw [hz' _ (fun o ho => by
    apply List.sum_eq_zero
    intro x hx
    obtain ⟨j, _, rfl⟩ := List.mem_map.mp hx
    apply List.sum_eq_zero
    intro x hx
    obtain ⟨k, _, rfl⟩ := List.mem_map.mp hx
    rw [ho]; ring), add_zero]
  congr 1
  apply List.map_congr_left
  intro p _
  rw [happ _ _ (fun o ho => by
    apply List.sum_eq_zero
    intro x hx
    obtain ⟨k, _, rfl⟩ := List.mem_map.mp hx
    rw [ho]; ring)]
  congr 1
  apply List.map_congr_left
  intro j _
  rw [happ _ _ (fun o ho => by rw [ho]; ring)]

theorem sum_copies (n : Nat) (all : List (Obj ℝ)) (g : Obj ℝ → Bool) (F : Obj ℝ → ℝ) :
    ((((List.replicate n all).flatten).filter g).map F).sum = n * ((all.filter g).map F).sum := by
  induction n with
  | zero => simp
  | succ n ih =>
    rw [List.replicate_succ, List.flatten_cons, List.filter_append, List.map_append, List.sum_append, ih]
    push_cast
    ring

/-- Copies of a catalog. -/
theorem triangles_copies (box : Option (Vec ℝ)) (edges : List ℝ) (l n : Nat) (all : List (Obj ℝ)) (b1 b2 : Nat) :
    Triangles box edges l (List.replicate n all).flatten b1 b2 = n ^ 3 * Triangles box edges l all b1 b2 := by
  have h0 : ∀ F : Obj ℝ → ℝ, (((List.replicate n all).flatten).map F).sum = n * (all.map F).sum := by
    intro F
    have := sum_copies n all (fun _ => true) F
    simpa using this
  unfold Triangles Tpcf.triangles
  rw [h0]
  rw [show ((n : ℝ) ^ 3) = n * n ^ 2 by ring, mul_assoc]
  congr 1
  rw [← List.sum_map_mul_left]
  congr 1
  apply List.map_congr_left
  intro p _
  rw [sum_copies, show ((n : ℝ) ^ 2) = n * n by ring, mul_assoc]
  congr 1
  rw [← List.sum_map_mul_left]
  congr 1
  apply List.map_congr_left
  intro j _
  rw [sum_copies]

/-! ### Periodic differences -/

theorem wrapAxis_eq {L d d' : ℝ} (h1 : -L < d) (h2 : d < L) (h3 : -L < d') (h4 : d' < L) (n : ℤ) (h : d' = d + n * L) :
    Tpcf.wrapAxis L d' = Tpcf.wrapAxis L d := by
  have hL : 0 < L := by linarith
  obtain ⟨a1, a2, k, hk⟩ := Tpcf.wrapAxis_spec L d h1 h2
  obtain ⟨c1, c2, k', hk'⟩ := Tpcf.wrapAxis_spec L d' h3 h4
  have e : Tpcf.wrapAxis L d' - Tpcf.wrapAxis L d = ((n + k' - k : ℤ) : ℝ) * L := by rw [hk, hk', h]; push_cast; ring
  have hz : n + k' - k = 0 := by
    have u1 : ((n + k' - k : ℤ) : ℝ) * L < 1 * L := by rw [← e]; linarith
    have u2 : (-1) * L < ((n + k' - k : ℤ) : ℝ) * L := by rw [← e]; linarith
    have v1 := lt_of_mul_lt_mul_right u1 hL.le
    have v2 := lt_of_mul_lt_mul_right u2 hL.le
    have v1 : n + k' - k < 1 := by exact_mod_cast v1
    have v2 : -1 < n + k' - k := by exact_mod_cast v2
    omega
  rw [hz] at e
  push_cast at e
  linarith

/-- The image of a coordinate in the box. -/
theorem wrap_image (L x : ℝ) : ∃ n : ℤ, wrap L x = x + n * L := ⟨-⌊x / L⌋, by unfold wrap; push_cast; ring⟩

theorem wrapAxis_shift {L : ℝ} (hL : 0 < L) (t a b : ℝ) :
    Tpcf.wrapAxis L (wrap L (a + t) - wrap L (b + t)) = Tpcf.wrapAxis L (wrap L a - wrap L b) := by
  obtain ⟨r1, r2⟩ := wrap_range hL (a + t)
  obtain ⟨r3, r4⟩ := wrap_range hL (b + t)
  obtain ⟨r5, r6⟩ := wrap_range hL a
  obtain ⟨r7, r8⟩ := wrap_range hL b
  obtain ⟨n1, e1⟩ := wrap_image L (a + t)
  obtain ⟨n2, e2⟩ := wrap_image L (b + t)
  obtain ⟨n3, e3⟩ := wrap_image L a
  obtain ⟨n4, e4⟩ := wrap_image L b
  refine wrapAxis_eq (by linarith) (by linarith) (by linarith) (by linarith) (n1 - n2 - n3 + n4) ?_
  rw [e1, e2, e3, e4]
  push_cast
  ring

theorem wrapAxis_flip {L : ℝ} (hL : 0 < L) (a b : ℝ) :
    Tpcf.wrapAxis L (wrap L (-a) - wrap L (-b)) = -Tpcf.wrapAxis L (wrap L a - wrap L b) ∨
      (Tpcf.wrapAxis L (wrap L (-a) - wrap L (-b)) = L / 2 ∧ Tpcf.wrapAxis L (wrap L a - wrap L b) = L / 2) := by
  obtain ⟨r1, r2⟩ := wrap_range hL (-a)
  obtain ⟨r3, r4⟩ := wrap_range hL (-b)
  obtain ⟨r5, r6⟩ := wrap_range hL a
  obtain ⟨r7, r8⟩ := wrap_range hL b
  obtain ⟨n1, e1⟩ := wrap_image L (-a)
  obtain ⟨n2, e2⟩ := wrap_image L (-b)
  obtain ⟨n3, e3⟩ := wrap_image L a
  obtain ⟨n4, e4⟩ := wrap_image L b
  obtain ⟨a1, a2, k, hk⟩ := Tpcf.wrapAxis_spec L (wrap L a - wrap L b) (by linarith) (by linarith)
  obtain ⟨c1, c2, k', hk'⟩ := Tpcf.wrapAxis_spec L (wrap L (-a) - wrap L (-b)) (by linarith) (by linarith)
  have e : Tpcf.wrapAxis L (wrap L (-a) - wrap L (-b)) + Tpcf.wrapAxis L (wrap L a - wrap L b) =
      ((n1 - n2 + n3 - n4 + k + k' : ℤ) : ℝ) * L := by
    rw [hk, hk', e1, e2, e3, e4]; push_cast; ring
  generalize Tpcf.wrapAxis L (wrap L (-a) - wrap L (-b)) = x at *
  generalize Tpcf.wrapAxis L (wrap L a - wrap L b) = y at *
  generalize n1 - n2 + n3 - n4 + k + k' = n at *
  have u1 : ((n : ℤ) : ℝ) * L ≤ 1 * L := by rw [← e]; linarith
  have u2 : (-1) * L < ((n : ℤ) : ℝ) * L := by rw [← e]; linarith
  have v1 := le_of_mul_le_mul_right u1 hL
  have v2 := lt_of_mul_lt_mul_right u2 hL.le
  have v1 : n ≤ 1 := by exact_mod_cast v1
  have v2 : -1 < n := by exact_mod_cast v2
  rcases (by omega : n = 0 ∨ n = 1) with h | h
  · left; rw [h] at e; push_cast at e; linarith
  · right; rw [h] at e; push_cast at e; constructor <;> linarith

theorem wrap_units {s : ℝ} (hs : 0 < s) (L x : ℝ) : wrap (s * L) (s * x) = s * wrap L x := by
  unfold wrap
  rw [mul_div_mul_left _ _ hs.ne']
  ring

theorem wrapAxis_units {s : ℝ} (hs : 0 < s) (L d : ℝ) : Tpcf.wrapAxis (s * L) (s * d) = s * Tpcf.wrapAxis L d := by
  have h : ∀ a b : ℝ, s * a > s * b ↔ a > b := fun a b => mul_lt_mul_iff_right₀ hs
  have h' : ∀ a b : ℝ, s * a ≤ s * b ↔ a ≤ b := fun a b => mul_le_mul_iff_right₀ hs
  unfold Tpcf.wrapAxis
  dsimp only
  have e1 : s * L * (1 / 2) = s * (L * (1 / 2)) := by ring
  have e2 : -(s * L) * (1 / 2) = s * (-L * (1 / 2)) := by ring
  rw [e1, e2]
  by_cases c : d > L * (1 / 2)
  · rw [if_pos ((h _ _).mpr c), if_pos c]
    have e3 : s * d - s * L = s * (d - L) := by ring
    rw [e3]
    by_cases c' : d - L ≤ -L * (1 / 2)
    · rw [if_pos ((h' _ _).mpr c'), if_pos c']; ring
    · rw [if_neg (fun q => c' ((h' _ _).mp q)), if_neg c']
  · rw [if_neg (fun q => c ((h _ _).mp q)), if_neg c]
    by_cases c' : d ≤ -L * (1 / 2)
    · rw [if_pos ((h' _ _).mpr c'), if_pos c']; ring
    · rw [if_neg (fun q => c' ((h' _ _).mp q)), if_neg c']

/-! ### Two boxes -/

/-- The arguments of `SimulationBox3PCF` other than the multipoles, the edges and `periodic`, and the machine it runs on. -/
structure BoxCall where
  enum : Enum
  np : Nat × Nat × Nat
  src : Source
  size : Option Size
  weight : String
  position : String

/-- The call. -/
def BoxCall.out (c : BoxCall) (poles : List Nat) (edges : List ℝ) (per : Bool) : Except Err Out :=
  simBox c.enum c.np c.src poles edges c.size (some per) c.weight c.position

/-- The call finds the box `L` and the objects `D`, and nothing raises. -/
structure BoxCall.Fits (c : BoxCall) (edges : List ℝ) (per : Bool) (L : Vec ℝ) (D : List (List (Obj ℝ))) : Prop where
  kd : KdOk c.enum
  cols : ∃ pos w, c.src.vec.lookup c.position = some pos ∧ c.src.num.lookup c.weight = some w ∧ rows pos w = D
  box : verifyBox c.src.box c.size = .ok L
  hx : 0 < L.x
  hy : 0 < L.y
  hz : 0 < L.z
  hmax : per = true → SurvPairs.maxOf edges ≤ 0.5 * boxMin L
  ranks : 0 < D.length
  grid : c.np.1 * c.np.2.1 * c.np.2.2 = D.length
  load : D.flatten = [] ∨ 9 * D.length < D.flatten.length

theorem BoxCall.Fits.spec {c : BoxCall} {edges : List ℝ} {per : Bool} {L : Vec ℝ} {D : List (List (Obj ℝ))} (h : c.Fits edges per L D)
    {poles : List Nat} (hb : Binning poles edges) :
    ∃ out, c.out poles edges per = .ok out ∧ Multipoles (if per then some L else none) edges poles (images L per D.flatten) out.poles := by
  obtain ⟨pos, w, hp, hw, rfl⟩ := h.cols
  obtain ⟨out, e, _, _, _, hm⟩ := sim_spec_partial c.enum h.kd c.np c.src poles edges hb c.size per c.weight c.position pos w hp hw L h.box h.hx
    h.hy h.hz h.hmax h.ranks h.grid h.load
  exact ⟨out, e, hm⟩

/-- Both calls succeed, and all values of the second are `k` times those of the first. -/
def BoxCall.Relates (c c' : BoxCall) (poles : List Nat) (edges edges' : List ℝ) (per : Bool) (k : ℝ) : Prop :=
  ∃ out out', c.out poles edges per = .ok out ∧ c'.out poles edges' per = .ok out' ∧ Scaled edges.length k out.poles out'.poles

theorem box_related {c c' : BoxCall} {poles : List Nat} {edges edges' : List ℝ} {per : Bool} {L L' : Vec ℝ} {D D' : List (List (Obj ℝ))} {k : ℝ}
    (h : c.Fits edges per L D) (h' : c'.Fits edges' per L' D') (hb : Binning poles edges) (hb' : Binning poles edges')
    (hlen : edges'.length = edges.length)
    (ht : ∀ l b1 b2 : Nat, b1 + 1 < edges.length → b2 + 1 < edges.length →
      Triangles (if per then some L' else none) edges' l (images L' per D'.flatten) b1 b2 =
        k * Triangles (if per then some L else none) edges l (images L per D.flatten) b1 b2) :
    c.Relates c' poles edges edges' per k := by
  obtain ⟨out, e, hm⟩ := h.spec hb
  obtain ⟨out', e', hm'⟩ := h'.spec hb'
  exact ⟨out, out', e, e', multipoles_scaled hm hm' hlen ht⟩

/-- An object moved by `f`, with its weight times `k`. -/
def move (f : Vec ℝ → Vec ℝ) (k : ℝ) (o : Obj ℝ) : Obj ℝ := ⟨f o.pos, k * o.w⟩

theorem edges_one (edges : List ℝ) : edges.map ((1 : ℝ) * ·) = edges := by simp

/-- **C144** The unit of the weights: weights times `k` give multipoles times `k ^ 3`. -/
theorem box_weights {c c' : BoxCall} {poles : List Nat} {edges : List ℝ} {per : Bool} {L : Vec ℝ} {D D' : List (List (Obj ℝ))} (k : ℝ)
    (h : c.Fits edges per L D) (h' : c'.Fits edges per L D') (hb : Binning poles edges)
    (hD : D'.flatten.Perm (D.flatten.map (move id k))) : c.Relates c' poles edges edges per (k ^ 3) := by
  refine box_related h h' hb hb rfl fun l b1 b2 _ _ => ?_
  rw [triangles_all_perm _ _ _ (images_perm L per hD)]
  have e : images L per (D.flatten.map (move id k)) = (images L per D.flatten).map (move id k) := by
    cases per with
    | false => rfl
    | true => simp only [images, if_true, List.map_map]; rfl
  rw [e]
  have := triangles_rows (box := if per then some L else none) (box' := if per then some L else none) (edges := edges) one_pos id (move id k)
    (images L per D.flatten) (c := k) (fun _ => rfl) (fun p j => by rw [one_pow, one_mul]; rfl) l b1 b2
    (fun p j q _ _ => by rw [one_pow, one_mul]; rfl)
  rwa [edges_one, List.map_id] at this

/-- **C144** Objects of weight zero can be left out. -/
theorem box_zero {c c' : BoxCall} {poles : List Nat} {edges : List ℝ} {per : Bool} {L : Vec ℝ} {D D' : List (List (Obj ℝ))} (Z : List (Obj ℝ))
    (h : c.Fits edges per L D) (h' : c'.Fits edges per L D') (hb : Binning poles edges) (hZ : ∀ o ∈ Z, o.w = 0)
    (hD : D'.flatten.Perm (D.flatten ++ Z)) : c.Relates c' poles edges edges per 1 := by
  refine box_related h h' hb hb rfl fun l b1 b2 _ _ => ?_
  rw [triangles_all_perm _ _ _ (images_perm L per hD), one_mul]
  have e : images L per (D.flatten ++ Z) = images L per D.flatten ++ images L per Z := by
    cases per with
    | false => rfl
    | true => simp only [images, if_true, List.map_append]
  rw [e]
  refine triangles_zero _ _ _ _ _ (fun o ho => ?_) _ _
  cases per with
  | false => exact hZ o ho
  | true =>
    simp only [images, if_true, List.mem_map] at ho
    obtain ⟨q, hq, rfl⟩ := ho
    exact hZ q hq

/-- **C144** `n` copies of a catalog give `n ^ 3` times the multipoles. -/
theorem box_copies {c c' : BoxCall} {poles : List Nat} {edges : List ℝ} {per : Bool} {L : Vec ℝ} {D D' : List (List (Obj ℝ))} (n : Nat)
    (h : c.Fits edges per L D) (h' : c'.Fits edges per L D') (hb : Binning poles edges)
    (hD : D'.flatten.Perm (List.replicate n D.flatten).flatten) : c.Relates c' poles edges edges per ((n : ℝ) ^ 3) := by
  refine box_related h h' hb hb rfl fun l b1 b2 _ _ => ?_
  rw [triangles_all_perm _ _ _ (images_perm L per hD)]
  have e : images L per (List.replicate n D.flatten).flatten = (List.replicate n (images L per D.flatten)).flatten := by
    cases per with
    | false => rfl
    | true => simp only [images, if_true, List.map_flatten, List.map_replicate]
  rw [e, triangles_copies]

theorem images_true (L : Vec ℝ) (l : List (Obj ℝ)) : images L true l = l.map fun o => ⟨wrapVec L o.pos, o.w⟩ := rfl

theorem dpos_wrapped (L : Vec ℝ) (p s : Obj ℝ) : Tpcf.dposOf (some L) ⟨wrapVec L p.pos, p.w⟩ ⟨wrapVec L s.pos, s.w⟩ =
    ⟨Tpcf.wrapAxis L.x (wrap L.x s.pos.x - wrap L.x p.pos.x), Tpcf.wrapAxis L.y (wrap L.y s.pos.y - wrap L.y p.pos.y),
      Tpcf.wrapAxis L.z (wrap L.z s.pos.z - wrap L.z p.pos.z)⟩ := rfl

/-- A map of the objects between two periodic boxes that keeps the triangles, up to the unit of length. -/
theorem periodic_related {c c' : BoxCall} {poles : List Nat} {edges : List ℝ} {L L' : Vec ℝ} {D D' : List (List (Obj ℝ))} {s : ℝ} (hs : 0 < s)
    (f : Vec ℝ → Vec ℝ) (h : c.Fits edges true L D) (h' : c'.Fits (edges.map (s * ·)) true L' D') (hb : Binning poles edges)
    (hb' : Binning poles (edges.map (s * ·))) (hD : D'.flatten.Perm (D.flatten.map (move f 1)))
    (hsep : ∀ p j : Vec ℝ, ∀ a b : ℝ, dot (Tpcf.dposOf (some L') ⟨wrapVec L' (f p), a⟩ ⟨wrapVec L' (f j), b⟩)
      (Tpcf.dposOf (some L') ⟨wrapVec L' (f p), a⟩ ⟨wrapVec L' (f j), b⟩) =
      s ^ 2 * dot (Tpcf.dposOf (some L) ⟨wrapVec L p, a⟩ ⟨wrapVec L j, b⟩) (Tpcf.dposOf (some L) ⟨wrapVec L p, a⟩ ⟨wrapVec L j, b⟩))
    (hdot : ∀ p j k : Vec ℝ, ∀ u v w : ℝ, ∀ b1 b2 : Nat, b1 + 1 < edges.length → b2 + 1 < edges.length →
      Tpcf.InBin edges b1 (Tpcf.sep (Ylm.tpcfEnv (some L) edges) ⟨wrapVec L p, u⟩ ⟨wrapVec L j, v⟩) →
      Tpcf.InBin edges b2 (Tpcf.sep (Ylm.tpcfEnv (some L) edges) ⟨wrapVec L p, u⟩ ⟨wrapVec L k, w⟩) →
      dot (Tpcf.dposOf (some L') ⟨wrapVec L' (f p), u⟩ ⟨wrapVec L' (f j), v⟩) (Tpcf.dposOf (some L') ⟨wrapVec L' (f p), u⟩ ⟨wrapVec L' (f k), w⟩) =
      s ^ 2 * dot (Tpcf.dposOf (some L) ⟨wrapVec L p, u⟩ ⟨wrapVec L j, v⟩) (Tpcf.dposOf (some L) ⟨wrapVec L p, u⟩ ⟨wrapVec L k, w⟩)) :
    c.Relates c' poles edges (edges.map (s * ·)) true 1 := by
  refine box_related h h' hb hb' (by simp) fun l b1 b2 h1 h2 => ?_
  rw [triangles_all_perm _ _ _ (images_perm L' true hD)]
  simp only [if_true, images_true, List.map_map]
  have := triangles_rows (box := some L) (box' := some L') (edges := edges) hs (fun o : Obj ℝ => ⟨wrapVec L o.pos, o.w⟩)
    ((fun o : Obj ℝ => ⟨wrapVec L' o.pos, o.w⟩) ∘ move f 1) D.flatten (c := 1) (fun _ => rfl)
    (fun p j => hsep p.pos j.pos (1 * p.w) (1 * j.w)) l b1 b2
    (fun p j k i1 i2 => hdot p.pos j.pos k.pos (1 * p.w) (1 * j.w) (1 * k.w) b1 b2 h1 h2 i1 i2)
  rwa [one_pow] at this

/-- **C144** In a periodic box, nothing depends on the origin: all objects may be moved by a vector, in any box. -/
theorem periodic_shift {c c' : BoxCall} {poles : List Nat} {edges : List ℝ} {L : Vec ℝ} {D D' : List (List (Obj ℝ))} (t : Vec ℝ)
    (h : c.Fits edges true L D) (h' : c'.Fits edges true L D') (hb : Binning poles edges)
    (hD : D'.flatten.Perm (D.flatten.map (move (fun v => ⟨v.x + t.x, v.y + t.y, v.z + t.z⟩) 1))) :
    c.Relates c' poles edges edges true 1 := by
  have key : ∀ p j : Vec ℝ, ∀ a b : ℝ, Tpcf.dposOf (some L) ⟨wrapVec L ⟨p.x + t.x, p.y + t.y, p.z + t.z⟩, a⟩
      ⟨wrapVec L ⟨j.x + t.x, j.y + t.y, j.z + t.z⟩, b⟩ = Tpcf.dposOf (some L) ⟨wrapVec L p, a⟩ ⟨wrapVec L j, b⟩ := by
    intro p j a b
    have e := dpos_wrapped L ⟨⟨p.x + t.x, p.y + t.y, p.z + t.z⟩, a⟩ ⟨⟨j.x + t.x, j.y + t.y, j.z + t.z⟩, b⟩
    have e' := dpos_wrapped L ⟨p, a⟩ ⟨j, b⟩
    dsimp only at e e'
    rw [e, e', wrapAxis_shift h.hx, wrapAxis_shift h.hy, wrapAxis_shift h.hz]
  have := periodic_related (edges := edges) one_pos (fun v : Vec ℝ => ⟨v.x + t.x, v.y + t.y, v.z + t.z⟩) h (by rwa [edges_one]) hb (by rwa [edges_one]) hD
    (fun p j a b => by rw [key, one_pow, one_mul]) (fun p j k u v w b1 b2 _ _ _ _ => by rw [key, key, one_pow, one_mul])
  rwa [edges_one] at this

/-- **C144** The unit of length: positions, box and edges times `s` give the same multipoles. -/
theorem periodic_units {c c' : BoxCall} {poles : List Nat} {edges : List ℝ} {L : Vec ℝ} {D D' : List (List (Obj ℝ))} {s : ℝ} (hs : 0 < s)
    (h : c.Fits edges true L D) (h' : c'.Fits (edges.map (s * ·)) true ⟨s * L.x, s * L.y, s * L.z⟩ D') (hb : Binning poles edges)
    (hb' : Binning poles (edges.map (s * ·))) (hD : D'.flatten.Perm (D.flatten.map (move (fun v => ⟨s * v.x, s * v.y, s * v.z⟩) 1))) :
    c.Relates c' poles edges (edges.map (s * ·)) true 1 := by
  have key : ∀ p j : Vec ℝ, ∀ a b : ℝ, Tpcf.dposOf (some ⟨s * L.x, s * L.y, s * L.z⟩)
      ⟨wrapVec ⟨s * L.x, s * L.y, s * L.z⟩ ⟨s * p.x, s * p.y, s * p.z⟩, a⟩
      ⟨wrapVec ⟨s * L.x, s * L.y, s * L.z⟩ ⟨s * j.x, s * j.y, s * j.z⟩, b⟩ =
      ⟨s * (Tpcf.dposOf (some L) ⟨wrapVec L p, a⟩ ⟨wrapVec L j, b⟩).x, s * (Tpcf.dposOf (some L) ⟨wrapVec L p, a⟩ ⟨wrapVec L j, b⟩).y,
        s * (Tpcf.dposOf (some L) ⟨wrapVec L p, a⟩ ⟨wrapVec L j, b⟩).z⟩ := by
    intro p j a b
    have e := dpos_wrapped ⟨s * L.x, s * L.y, s * L.z⟩ ⟨⟨s * p.x, s * p.y, s * p.z⟩, a⟩ ⟨⟨s * j.x, s * j.y, s * j.z⟩, b⟩
    have e' := dpos_wrapped L ⟨p, a⟩ ⟨j, b⟩
    dsimp only at e e'
    rw [e, e']
    simp only [wrap_units hs, ← mul_sub, wrapAxis_units hs]
  refine periodic_related hs (fun v : Vec ℝ => ⟨s * v.x, s * v.y, s * v.z⟩) h h' hb hb' hD
    (fun p j a b => by rw [key]; unfold dot; dsimp only; ring) (fun p j k u v w b1 b2 _ _ _ _ => by rw [key, key]; unfold dot; dsimp only; ring)

/-- Exchanging axes: the second and the third, or all in a cycle; these generate all orders. -/
def axes (cyc : Bool) (v : Vec ℝ) : Vec ℝ := if cyc then ⟨v.y, v.z, v.x⟩ else ⟨v.y, v.x, v.z⟩

/-- **C144** In a periodic box, the axes may be exchanged. -/
theorem periodic_axes {c c' : BoxCall} {poles : List Nat} {edges : List ℝ} {L : Vec ℝ} {D D' : List (List (Obj ℝ))} (cyc : Bool)
    (h : c.Fits edges true L D) (h' : c'.Fits edges true (axes cyc L) D') (hb : Binning poles edges)
    (hD : D'.flatten.Perm (D.flatten.map (move (axes cyc) 1))) : c.Relates c' poles edges edges true 1 := by
  have key : ∀ p j : Vec ℝ, ∀ a b : ℝ, Tpcf.dposOf (some (axes cyc L)) ⟨wrapVec (axes cyc L) (axes cyc p), a⟩
      ⟨wrapVec (axes cyc L) (axes cyc j), b⟩ = axes cyc (Tpcf.dposOf (some L) ⟨wrapVec L p, a⟩ ⟨wrapVec L j, b⟩) := by
    intro p j a b
    cases cyc <;> rfl
  have hd : ∀ u v : Vec ℝ, dot (axes cyc u) (axes cyc v) = dot u v := fun u v => by cases cyc <;> simp only [axes, dot] <;> simp <;> ring
  have := periodic_related (edges := edges) one_pos (axes cyc) h (by rwa [edges_one]) hb (by rwa [edges_one]) hD
    (fun p j a b => by rw [key, hd, one_pow, one_mul]) (fun p j k u v w b1 b2 _ _ _ _ => by rw [key, key, hd, one_pow, one_mul])
  rwa [edges_one] at this

/-- The mirror images along some axes. -/
def mirror (a : Bool × Bool × Bool) (v : Vec ℝ) : Vec ℝ :=
  ⟨if a.1 then -v.x else v.x, if a.2.1 then -v.y else v.y, if a.2.2 then -v.z else v.z⟩

/-- The sign of an axis. -/
def sgn (b : Bool) : ℝ := if b then -1 else 1

theorem sgn_sq (b : Bool) : sgn b * sgn b = 1 := by cases b <;> simp [sgn]

theorem mirror_axis {L : ℝ} (hL : 0 < L) (b : Bool) (x y : ℝ) :
    Tpcf.wrapAxis L (wrap L (if b then -x else x) - wrap L (if b then -y else y)) = sgn b * Tpcf.wrapAxis L (wrap L x - wrap L y) ∨
      (Tpcf.wrapAxis L (wrap L (if b then -x else x) - wrap L (if b then -y else y)) = L / 2 ∧ Tpcf.wrapAxis L (wrap L x - wrap L y) = L / 2) := by
  cases b with
  | false => left; simp [sgn]
  | true =>
    rcases wrapAxis_flip hL x y with h | h
    · left; simpa [sgn] using h
    · right; simpa using h

theorem getD_le_maxOf (edges : List ℝ) (b : Nat) (hb : b < edges.length) : edges.getD b 0 ≤ SurvPairs.maxOf edges := by
  rw [List.getD_eq_getElem _ _ hb]
  exact SurvPairs.le_maxOf (List.getElem_mem hb)

/-- **C144** In a periodic box, the objects may be replaced by their mirror images (partial: if the largest edge is less than half the box, see
`mirror_half`). -/
theorem periodic_mirror_partial {c c' : BoxCall} {poles : List Nat} {edges : List ℝ} {L : Vec ℝ} {D D' : List (List (Obj ℝ))}
    (a : Bool × Bool × Bool) (h : c.Fits edges true L D) (h' : c'.Fits edges true L D') (hb : Binning poles edges)
    (hlt : SurvPairs.maxOf edges < 0.5 * boxMin L) (hD : D'.flatten.Perm (D.flatten.map (move (mirror a) 1))) :
    c.Relates c' poles edges edges true 1 := by
  have hL : boxMin L ≤ L.x ∧ boxMin L ≤ L.y ∧ boxMin L ≤ L.z := (box_sides L (boxMin L)).1.mp le_rfl
  have sq : ∀ (L x y : ℝ) (hL : 0 < L) (b : Bool), Tpcf.wrapAxis L (wrap L (if b then -x else x) - wrap L (if b then -y else y)) *
      Tpcf.wrapAxis L (wrap L (if b then -x else x) - wrap L (if b then -y else y)) =
      Tpcf.wrapAxis L (wrap L x - wrap L y) * Tpcf.wrapAxis L (wrap L x - wrap L y) := by
    intro L x y hL b
    rcases mirror_axis hL b x y with h | ⟨h, h'⟩
    · rw [h, mul_mul_mul_comm, sgn_sq, one_mul]
    · rw [h, h']
  -- the components of a separation in a bin are less than half the box
  have comp : ∀ (p j : Vec ℝ) (u v : ℝ) (b : Nat), b + 1 < edges.length →
      Tpcf.InBin edges b (Tpcf.sep (Ylm.tpcfEnv (some L) edges) ⟨wrapVec L p, u⟩ ⟨wrapVec L j, v⟩) →
      Tpcf.dposOf (some L) ⟨wrapVec L (mirror a p), u⟩ ⟨wrapVec L (mirror a j), v⟩ =
        ⟨sgn a.1 * (Tpcf.dposOf (some L) ⟨wrapVec L p, u⟩ ⟨wrapVec L j, v⟩).x, sgn a.2.1 * (Tpcf.dposOf (some L) ⟨wrapVec L p, u⟩ ⟨wrapVec L j, v⟩).y,
          sgn a.2.2 * (Tpcf.dposOf (some L) ⟨wrapVec L p, u⟩ ⟨wrapVec L j, v⟩).z⟩ := by
    intro p j u v b hlen hin
    have e := dpos_wrapped L ⟨mirror a p, u⟩ ⟨mirror a j, v⟩
    have e' := dpos_wrapped L ⟨p, u⟩ ⟨j, v⟩
    dsimp only at e e'
    have hle : Tpcf.sep (Ylm.tpcfEnv (some L) edges) ⟨wrapVec L p, u⟩ ⟨wrapVec L j, v⟩ ≤ SurvPairs.maxOf edges :=
      hin.2.2.trans (getD_le_maxOf edges _ hlen)
    unfold Tpcf.sep Ylm.tpcfEnv at hle
    dsimp only at hle
    obtain ⟨c1, c2, c3⟩ := comp_le hle
    rw [e'] at c1 c2 c3 ⊢
    rw [e]
    dsimp only [mirror] at c1 c2 c3 ⊢
    obtain ⟨l1, l2, l3⟩ := hL
    have ne : ∀ K x : ℝ, boxMin L ≤ K → |x| ≤ SurvPairs.maxOf edges → x ≠ K / 2 := by
      intro K x hK hx he
      have := (le_abs_self x).trans hx
      rw [he] at this
      linarith
    congr 1
    · exact (mirror_axis h.hx a.1 _ _).resolve_right fun q => ne _ _ l1 c1 q.2
    · exact (mirror_axis h.hy a.2.1 _ _).resolve_right fun q => ne _ _ l2 c2 q.2
    · exact (mirror_axis h.hz a.2.2 _ _).resolve_right fun q => ne _ _ l3 c3 q.2
  have := periodic_related (edges := edges) one_pos (mirror a) h (by rwa [edges_one]) hb (by rwa [edges_one]) hD
    (fun p j u v => by
      have e := dpos_wrapped L ⟨mirror a p, u⟩ ⟨mirror a j, v⟩
      have e' := dpos_wrapped L ⟨p, u⟩ ⟨j, v⟩
      dsimp only at e e'
      rw [e, e', one_pow, one_mul]
      unfold dot
      dsimp only [mirror]
      rw [sq _ _ _ h.hx, sq _ _ _ h.hy, sq _ _ _ h.hz])
    (fun p j k u v w b1 b2 h1 h2 i1 i2 => by
      rw [comp p j u v b1 h1 i1, comp p k u w b2 h2 i2, one_pow, one_mul]
      unfold dot
      dsimp only
      linear_combination (Tpcf.dposOf (some L) ⟨wrapVec L p, u⟩ ⟨wrapVec L j, v⟩).x * (Tpcf.dposOf (some L) ⟨wrapVec L p, u⟩ ⟨wrapVec L k, w⟩).x * sgn_sq a.1 +
        (Tpcf.dposOf (some L) ⟨wrapVec L p, u⟩ ⟨wrapVec L j, v⟩).y * (Tpcf.dposOf (some L) ⟨wrapVec L p, u⟩ ⟨wrapVec L k, w⟩).y * sgn_sq a.2.1 +
        (Tpcf.dposOf (some L) ⟨wrapVec L p, u⟩ ⟨wrapVec L j, v⟩).z * (Tpcf.dposOf (some L) ⟨wrapVec L p, u⟩ ⟨wrapVec L k, w⟩).z * sgn_sq a.2.2)
  rwa [edges_one] at this

/-- A similarity of the space that multiplies lengths by `s`: a translation, rotation, reflection or a change of the unit, and their products. -/
def Similar (s : ℝ) (f : Vec ℝ → Vec ℝ) : Prop := ∀ u v w : Vec ℝ,
  dot ⟨(f v).x - (f u).x, (f v).y - (f u).y, (f v).z - (f u).z⟩ ⟨(f w).x - (f u).x, (f w).y - (f u).y, (f w).z - (f u).z⟩ =
    s ^ 2 * dot ⟨v.x - u.x, v.y - u.y, v.z - u.z⟩ ⟨w.x - u.x, w.y - u.y, w.z - u.z⟩

/-- The triangles of objects moved by a similarity. -/
theorem triangles_similar {s : ℝ} (hs : 0 < s) {f : Vec ℝ → Vec ℝ} (hf : Similar s f) (edges : List ℝ) (l : Nat) (all : List (Obj ℝ)) (b1 b2 : Nat) :
    Triangles none (edges.map (s * ·)) l (all.map (move f 1)) b1 b2 = Triangles none edges l all b1 b2 := by
  have := triangles_rows (box := none) (box' := none) (edges := edges) hs id (move f 1) all (c := 1) (fun _ => rfl)
    (fun p j => hf _ _ _) l b1 b2 (fun p j q _ _ => hf _ _ _)
  rwa [one_pow, one_mul, List.map_id] at this

/-- **C144** Without periodic images, the multipoles do not depend on the origin, the directions of the axes, the handedness or the unit of length,
and the box does not matter. -/
theorem open_similar {c c' : BoxCall} {poles : List Nat} {edges : List ℝ} {L L' : Vec ℝ} {D D' : List (List (Obj ℝ))} {s : ℝ} (hs : 0 < s)
    {f : Vec ℝ → Vec ℝ} (hf : Similar s f) (h : c.Fits edges false L D) (h' : c'.Fits (edges.map (s * ·)) false L' D') (hb : Binning poles edges)
    (hb' : Binning poles (edges.map (s * ·))) (hD : D'.flatten.Perm (D.flatten.map (move f 1))) :
    c.Relates c' poles edges (edges.map (s * ·)) false 1 := by
  refine box_related h h' hb hb' (by simp) fun l b1 b2 _ _ => ?_
  rw [triangles_all_perm _ _ _ (images_perm L' false hD), one_mul]
  exact triangles_similar hs hf edges l D.flatten b1 b2

end NBK.TpcfObj
