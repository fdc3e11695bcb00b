import Verif.BoxTpcf.Model
import Verif.Pairs.Props
import Verif.Pairs.BoxProps
import Verif.PcfObj.CrossProps

set_option linter.unusedSimpArgs false

/-! Lemmas on the counts of particles in a box. -/
namespace NBK.BoxTpcf
open NBK

/-! ### Nearest images -/

/-- `m` is the least square of the images of a difference on a circle. -/
def Least (L d m : ℚ) : Prop := (∃ i : ℤ, m = (d + i * L) ^ 2) ∧ ∀ i : ℤ, m ≤ (d + i * L) ^ 2

theorem Least.unique {L d m m' : ℚ} (h : Least L d m) (h' : Least L d m') : m = m' := by
  obtain ⟨⟨i, hi⟩, hl⟩ := h
  obtain ⟨⟨j, hj⟩, hl'⟩ := h'
  apply le_antisymm
  · rw [hj]; exact hl j
  · rw [hi]; exact hl' i

theorem Least.shift {L d m : ℚ} (h : Least L d m) (k : ℤ) : Least L (d + k * L) m := by
  obtain ⟨⟨i, hi⟩, hl⟩ := h
  refine ⟨⟨i - k, ?_⟩, fun j => ?_⟩
  · rw [hi]; push_cast; ring
  · have := hl (j + k)
    push_cast at this
    calc m ≤ _ := this
      _ = _ := by ring

theorem Least.neg {L d m : ℚ} (h : Least L d m) : Least L (-d) m := by
  obtain ⟨⟨i, hi⟩, hl⟩ := h
  refine ⟨⟨-i, ?_⟩, fun j => ?_⟩
  · rw [hi]; push_cast; ring
  · have := hl (-j)
    push_cast at this
    calc m ≤ _ := this
      _ = _ := by ring

/-- The nearest image of coordinates in the box is nearest among all images. -/
theorem axisSq_least (L a b : ℚ) (ha : 0 ≤ a ∧ a < L) (hb : 0 ≤ b ∧ b < L) : Least L (a - b) (Pairs.axisSq L a b) := by
  have hL : 0 < L := lt_of_le_of_lt ha.1 ha.2
  have e0 : (a - b) ^ 2 = (a - b + ((0 : ℤ) : ℚ) * L) ^ 2 := by push_cast; ring
  have e1 : (a - (b + L)) ^ 2 = (a - b + ((-1 : ℤ) : ℚ) * L) ^ 2 := by push_cast; ring
  have e2 : (a - (b - L)) ^ 2 = (a - b + ((1 : ℤ) : ℚ) * L) ^ 2 := by push_cast; ring
  constructor
  · unfold Pairs.axisSq
    rcases min_choice ((a - b) ^ 2) (min ((a - (b + L)) ^ 2) ((a - (b - L)) ^ 2)) with h | h
    · exact ⟨0, by rw [h, e0]⟩
    · rw [h]
      rcases min_choice ((a - (b + L)) ^ 2) ((a - (b - L)) ^ 2) with h' | h'
      · exact ⟨-1, by rw [h', e1]⟩
      · exact ⟨1, by rw [h', e2]⟩
  · intro i
    unfold Pairs.axisSq
    rcases lt_trichotomy i 0 with hi | rfl | hi
    · rcases (show i = -1 ∨ i ≤ -2 by omega) with rfl | hi
      · exact le_trans (min_le_right _ _) (le_trans (min_le_left _ _) (le_of_eq e1))
      · refine le_trans (min_le_left _ _) ?_
        have hq : (i : ℚ) ≤ -2 := by exact_mod_cast hi
        have hm : (i : ℚ) * L ≤ -2 * L := by nlinarith
        nlinarith [ha.1, ha.2, hb.1, hb.2]
    · exact le_trans (min_le_left _ _) (le_of_eq e0)
    · rcases (show i = 1 ∨ 2 ≤ i by omega) with rfl | hi
      · exact le_trans (min_le_right _ _) (le_trans (min_le_right _ _) (le_of_eq e2))
      · refine le_trans (min_le_left _ _) ?_
        have hq : (2 : ℚ) ≤ i := by exact_mod_cast hi
        have hm : 2 * L ≤ (i : ℚ) * L := by nlinarith
        nlinarith [ha.1, ha.2, hb.1, hb.2]

theorem wrap_eq (L x : ℚ) : ∃ k : ℤ, Pairs.wrap L x = x + k * L :=
  ⟨-(x / L).floor, by unfold Pairs.wrap; push_cast; ring⟩

/-- The distance of two wrapped coordinates is that of the nearest images of the coordinates. -/
theorem wrap_least (L a b : ℚ) (hL : 0 < L) : Least L (a - b) (Pairs.axisSq L (Pairs.wrap L a) (Pairs.wrap L b)) := by
  have h := axisSq_least L (Pairs.wrap L a) (Pairs.wrap L b) (Pairs.wrap_range L a hL) (Pairs.wrap_range L b hL)
  obtain ⟨i, hi⟩ := wrap_eq L a
  obtain ⟨j, hj⟩ := wrap_eq L b
  have := h.shift (j - i)
  have e : Pairs.wrap L a - Pairs.wrap L b + ((j - i : ℤ) : ℚ) * L = a - b := by rw [hi, hj]; push_cast; ring
  rwa [e] at this

theorem axisSq_comm (L a b : ℚ) : Pairs.axisSq L a b = Pairs.axisSq L b a := by
  unfold Pairs.axisSq
  rw [show (a - b) ^ 2 = (b - a) ^ 2 by ring, show (a - (b + L)) ^ 2 = (b - (a - L)) ^ 2 by ring,
    show (a - (b - L)) ^ 2 = (b - (a + L)) ^ 2 by ring, min_comm ((b - (a - L)) ^ 2)]

/-- The difference of two coordinates, with the wrapping if periodic. -/
def diff2 (periodic : Bool) (L a b : ℚ) : ℚ :=
  if periodic then Pairs.axisSq L (Pairs.wrap L a) (Pairs.wrap L b) else (a - b) ^ 2

theorem diff2_comm (periodic : Bool) (L a b : ℚ) : diff2 periodic L a b = diff2 periodic L b a := by
  unfold diff2
  cases periodic with
  | true => exact axisSq_comm _ _ _
  | false => simp only [Bool.false_eq_true, if_false]; ring

theorem diff2_shift (periodic : Bool) (L a b t : ℚ) (hL : periodic = true → 0 < L) : diff2 periodic L (a + t) (b + t) = diff2 periodic L a b := by
  unfold diff2
  cases periodic with
  | true =>
    have hL := hL rfl
    refine (wrap_least L (a + t) (b + t) hL).unique ?_
    have := wrap_least L a b hL
    rwa [show a + t - (b + t) = a - b by ring]
  | false => simp only [Bool.false_eq_true, if_false]; ring

theorem diff2_neg (periodic : Bool) (L a b : ℚ) (hL : periodic = true → 0 < L) : diff2 periodic L (-a) (-b) = diff2 periodic L a b := by
  unfold diff2
  cases periodic with
  | true =>
    have hL := hL rfl
    refine (wrap_least L (-a) (-b) hL).unique ?_
    have := (wrap_least L a b hL).neg
    rwa [show -(a - b) = -a - -b by ring] at this
  | false => simp only [Bool.false_eq_true, if_false]; ring

theorem diff2_image (L a b : ℚ) (i : ℤ) (hL : 0 < L) : diff2 true L (a + i * L) b = diff2 true L a b := by
  unfold diff2
  refine (wrap_least L (a + i * L) b hL).unique ?_
  have := (wrap_least L a b hL).shift i
  simp only [if_true]
  rwa [show a - b + i * L = a + i * L - b by ring] at this

theorem diff2_scale (periodic : Bool) (L a b c : ℚ) (hc : 0 < c) (hL : periodic = true → 0 < L) :
    diff2 periodic (c * L) (c * a) (c * b) = c ^ 2 * diff2 periodic L a b := by
  unfold diff2
  cases periodic with
  | true =>
    have hL := hL rfl
    refine (wrap_least (c * L) (c * a) (c * b) (by positivity)).unique ?_
    obtain ⟨⟨i, hi⟩, hl⟩ := wrap_least L a b hL
    simp only [if_true]
    refine ⟨⟨i, ?_⟩, fun j => ?_⟩
    · rw [hi]; ring
    · have := hl j
      have : c ^ 2 * Pairs.axisSq L (Pairs.wrap L a) (Pairs.wrap L b) ≤ c ^ 2 * (a - b + j * L) ^ 2 :=
        mul_le_mul_of_nonneg_left this (by positivity)
      calc _ ≤ _ := this
        _ = _ := by ring
  | false => simp only [Bool.false_eq_true, if_false]; ring

/-- The distance is that of the nearest image. -/
theorem diff2_near (periodic : Bool) (L a b : ℚ) (hL : periodic = true → 0 < L) : ∃ i : ℤ, diff2 periodic L a b = (a - b + i * L) ^ 2 := by
  unfold diff2
  cases periodic with
  | true => exact (wrap_least L a b (hL rfl)).1
  | false => exact ⟨0, by simp⟩

/-! ### The counts -/

/-- The number of pairs in a bin, the sum of a function over them, and the column entries. -/
def tallyN {A B : Type} (f : A → B → Option Nat) (X : List A) (Y : List B) (k : Nat) : Nat := (X.map fun a => Y.countP fun c => f a c = some k).sum

def tallyS {A B : Type} (f : A → B → Option Nat) (g : A → B → ℚ) (X : List A) (Y : List B) (k : Nat) : ℚ :=
  (X.map fun a => (Y.map fun c => if f a c = some k then g a c else 0).sum).sum

/-- The columns of `n` bins: mean separation, zero where there is no pair, and counts. -/
def tally {A : Type} (n : Nat) (f : A → A → Option Nat) (w : A → ℚ) (s : A → A → ℚ) (X Y : List A) : List Binned.Val × List (Nat × ℚ) :=
  ((List.range n).map fun k => .fin (if tallyN f X Y k = 0 then 0 else tallyS f s X Y k / tallyN f X Y k),
   (List.range n).map fun k => (tallyN f X Y k, tallyS f (fun a c => w a * w c) X Y k))

theorem tallyN_congr {A A' : Type} {f : A → A → Option Nat} {f' : A' → A' → Option Nat} {φ : A → A'} {X Y : List A} {X' Y' : List A'}
    (hX : X'.Perm (X.map φ)) (hY : Y'.Perm (Y.map φ)) (hf : ∀ a ∈ X, ∀ c ∈ Y, f' (φ a) (φ c) = f a c) (k : Nat) :
    tallyN f' X' Y' k = tallyN f X Y k := by
  unfold tallyN
  rw [(hX.map _).sum_eq, List.map_map]
  congr 1
  apply List.map_congr_left
  intro a ha
  simp only [Function.comp]
  rw [hY.countP_eq, List.countP_map]
  apply List.countP_congr
  intro c hc
  simp [hf a ha c hc]

theorem tallyS_congr {A A' : Type} {f : A → A → Option Nat} {f' : A' → A' → Option Nat} {g : A → A → ℚ} {g' : A' → A' → ℚ} {φ : A → A'}
    {X Y : List A} {X' Y' : List A'} (hX : X'.Perm (X.map φ)) (hY : Y'.Perm (Y.map φ)) (hf : ∀ a ∈ X, ∀ c ∈ Y, f' (φ a) (φ c) = f a c)
    (hg : ∀ a ∈ X, ∀ c ∈ Y, g' (φ a) (φ c) = g a c) (k : Nat) : tallyS f' g' X' Y' k = tallyS f g X Y k := by
  unfold tallyS
  rw [(hX.map _).sum_eq, List.map_map]
  congr 1
  apply List.map_congr_left
  intro a ha
  simp only [Function.comp]
  rw [(hY.map _).sum_eq, List.map_map]
  congr 1
  apply List.map_congr_left
  intro c hc
  simp [Function.comp, hf a ha c hc, hg a ha c hc]

theorem tally_congr {A A' : Type} (n : Nat) {f : A → A → Option Nat} {f' : A' → A' → Option Nat} {w : A → ℚ} {w' : A' → ℚ} {s : A → A → ℚ}
    {s' : A' → A' → ℚ} {φ : A → A'} {X Y : List A} {X' Y' : List A'} (hX : X'.Perm (X.map φ)) (hY : Y'.Perm (Y.map φ))
    (hf : ∀ a ∈ X, ∀ c ∈ Y, f' (φ a) (φ c) = f a c) (hw : ∀ a, w' (φ a) = w a) (hs : ∀ a ∈ X, ∀ c ∈ Y, s' (φ a) (φ c) = s a c) :
    tally n f' w' s' X' Y' = tally n f w s X Y := by
  unfold tally
  have h1 := tallyN_congr hX hY hf
  have h2 := tallyS_congr hX hY hf hs
  have h3 := tallyS_congr (g := fun a c => w a * w c) (g' := fun a c => w' a * w' c) hX hY hf (fun a _ c _ => by rw [hw, hw])
  simp only [h1, h2, h3]

theorem sum_swap {A B : Type} (F : A → B → ℚ) (X : List A) (Y : List B) :
    (X.map fun a => (Y.map fun c => F a c).sum).sum = (Y.map fun c => (X.map fun a => F a c).sum).sum := by
  induction X with
  | nil => simp
  | cons a X ih => simp only [List.map_cons, List.sum_cons, ih, List.sum_map_add]

theorem tallyS_swap {A : Type} {f : A → A → Option Nat} {g : A → A → ℚ} (hf : ∀ a c, f a c = f c a) (hg : ∀ a c, g a c = g c a) (X Y : List A)
    (k : Nat) : tallyS f g X Y k = tallyS f g Y X k := by
  unfold tallyS
  rw [sum_swap]
  congr 1
  apply List.map_congr_left
  intro c _
  congr 1
  apply List.map_congr_left
  intro a _
  rw [hf a c, hg a c]

theorem tallyN_eq {A B : Type} (f : A → B → Option Nat) (X : List A) (Y : List B) (k : Nat) : (tallyN f X Y k : ℚ) = tallyS f (fun _ _ => 1) X Y k := by
  unfold tallyN tallyS
  induction X with
  | nil => simp
  | cons a X ih =>
    simp only [List.map_cons, List.sum_cons, Nat.cast_add, ih]
    congr 1
    clear ih
    induction Y with
    | nil => simp
    | cons c Y ihY =>
      rw [List.countP_cons, List.map_cons, List.sum_cons, Nat.cast_add, ihY, add_comm]
      congr 1
      by_cases h : f a c = some k <;> simp [h]

theorem tallyN_swap {A : Type} {f : A → A → Option Nat} (hf : ∀ a c, f a c = f c a) (X Y : List A) (k : Nat) :
    tallyN f X Y k = tallyN f Y X k := by
  have := tallyS_swap (g := fun _ _ => 1) hf (fun _ _ => rfl) X Y k
  rw [← tallyN_eq, ← tallyN_eq] at this
  exact_mod_cast this

/-! ### One pair count -/

/-- Two positions have images within a distance. -/
def Near (box : Pos) (d2 : ℚ) (a b : Pos) : Prop :=
  ∃ i j k : ℤ, (a.x - b.x + i * box.x) ^ 2 + (a.y - b.y + j * box.y) ^ 2 + (a.z - b.z + k * box.z) ^ 2 ≤ d2

/-- The ranks are a communicator of `P` ranks: the reduction takes each of them once, and the decomposition gives every particle a rank and sends to
this rank all secondaries with an image within the smoothing length (the contract of pmesh's `GridND`). -/
structure Mach.Good (M : Mach) (P : Nat) : Prop where
  tree : M.tree.ranks.Perm (List.range P)
  owner : ∀ box d2 a, (M.lay box d2).owner a < P
  ghosts : ∀ box d2 a b, Near box d2 a b → (M.lay box d2).owner a ∈ (M.lay box d2).ghosts b

/-- All rows of a catalog. -/
def Cat.all (c : Cat) : List Part := c.rows.flatten

/-- The bin of two particles before they are wrapped. -/
def bin0 (los : Int) (periodic : Bool) (box : Pos) (b : Bins) (p q : Part) : Option Nat :=
  bin los periodic box b ⟨wrapPos periodic box p.pos, p.w⟩ ⟨wrapPos periodic box q.pos, q.w⟩

def sep0 (root : ℚ → ℚ) (los : Int) (periodic : Bool) (box : Pos) (b : Bins) (p q : Part) : ℚ :=
  sep root los periodic box b ⟨wrapPos periodic box p.pos, p.w⟩ ⟨wrapPos periodic box q.pos, q.w⟩

/-- What the checks ensure. -/
structure Fine (periodic : Bool) (box : Pos) (b : Bins) : Prop where
  mode : b.mode = "1d" ∨ (b.mode = "2d" ∧ ∃ n, b.Nmu = some n) ∨ (b.mode = "projected" ∧ ∃ p, b.pimax = some p ∧ 1 ≤ p)
  pos : ∀ e ∈ b.edges, 0 < e
  ne : b.edges ≠ []
  cube : periodic = true → 0 < box.x ∧ box.y = box.x ∧ box.z = box.x

theorem wrapped_flatten (periodic : Bool) (box : Pos) (c : Cat) :
    (wrapped periodic box c).flatten = c.all.map fun p => ⟨wrapPos periodic box p.pos, p.w⟩ := by
  unfold wrapped Cat.all
  rw [List.map_flatten]

theorem axis_wrap (periodic : Bool) (L a b : ℚ) :
    axis periodic L (if periodic then Pairs.wrap L a else a) (if periodic then Pairs.wrap L b else b) = diff2 periodic L a b := by
  unfold axis diff2
  cases periodic <;> rfl

theorem wrapPos_eq (periodic : Bool) (box p : Pos) : wrapPos periodic box p =
    ⟨if periodic then Pairs.wrap box.x p.x else p.x, if periodic then Pairs.wrap box.y p.y else p.y, if periodic then Pairs.wrap box.z p.z else p.z⟩ := by
  unfold wrapPos
  cases periodic <;> rfl

/-- The separations of two particles in terms of the differences along the axes. -/
theorem perp2_wrap (los : Int) (periodic : Bool) (box : Pos) (hc : periodic = true → box.y = box.x ∧ box.z = box.x) (p q : Pos) :
    perp2 periodic box.x (order los (wrapPos periodic box p)) (order los (wrapPos periodic box q)) =
      diff2 periodic box.x (order los p).x (order los q).x + diff2 periodic box.x (order los p).y (order los q).y ∧
    par2 periodic box.x (order los (wrapPos periodic box p)) (order los (wrapPos periodic box q)) =
      diff2 periodic box.x (order los p).z (order los q).z := by
  have hy : ∀ a : ℚ, (if periodic = true then Pairs.wrap box.y a else a) = if periodic = true then Pairs.wrap box.x a else a := by
    intro a; cases periodic with
    | true => simp [(hc rfl).1]
    | false => rfl
  have hz : ∀ a : ℚ, (if periodic = true then Pairs.wrap box.z a else a) = if periodic = true then Pairs.wrap box.x a else a := by
    intro a; cases periodic with
    | true => simp [(hc rfl).2]
    | false => rfl
  rw [wrapPos_eq, wrapPos_eq]
  unfold perp2 par2 order
  split
  · simp only [hy, hz]
    exact ⟨by rw [axis_wrap, axis_wrap], by rw [axis_wrap]⟩
  · split
    · simp only [hy, hz]
      exact ⟨by rw [axis_wrap, axis_wrap], by rw [axis_wrap]⟩
    · simp only [hy, hz]
      exact ⟨by rw [axis_wrap, axis_wrap], by rw [axis_wrap]⟩

theorem bin0_eq (los : Int) (periodic : Bool) (box : Pos) (b : Bins) (hc : periodic = true → box.y = box.x ∧ box.z = box.x) (p q : Part) :
    bin0 los periodic box b p q = binOf b
      (diff2 periodic box.x (order los p.pos).x (order los q.pos).x + diff2 periodic box.x (order los p.pos).y (order los q.pos).y)
      (diff2 periodic box.x (order los p.pos).z (order los q.pos).z) := by
  unfold bin0 bin
  rw [(perp2_wrap los periodic box hc p.pos q.pos).1, (perp2_wrap los periodic box hc p.pos q.pos).2]

theorem sep0_eq (root : ℚ → ℚ) (los : Int) (periodic : Bool) (box : Pos) (b : Bins) (hc : periodic = true → box.y = box.x ∧ box.z = box.x) (p q : Part) :
    sep0 root los periodic box b p q = root (sepOf b
      (diff2 periodic box.x (order los p.pos).x (order los q.pos).x + diff2 periodic box.x (order los p.pos).y (order los q.pos).y)
      (diff2 periodic box.x (order los p.pos).z (order los q.pos).z)) := by
  unfold sep0 sep
  rw [(perp2_wrap los periodic box hc p.pos q.pos).1, (perp2_wrap los periodic box hc p.pos q.pos).2]

theorem bins2_1d {b : Bins} (h : b.mode = "1d") : bins2 b = none ∧ nbins b = b.edges.length - 1 := by
  simp [bins2, edges2, nbins, PcfObj.runBins, h]

theorem bins2_2d {b : Bins} (h : b.mode = "2d") {n : Nat} (hn : b.Nmu = some n) :
    bins2 b = some n ∧ nbins b = (b.edges.length - 1) * n ∧ edges2 b = some (PcfObj.linspace 0 1 (n + 1)) := by
  have n12 : ¬ ("2d" = "1d") := by decide
  simp [bins2, edges2, nbins, PcfObj.runBins, h, n12, hn, PcfObj.linspace]

theorem bins2_proj {b : Bins} (h : b.mode = "projected") {p : ℚ} (hp : b.pimax = some p) (h1 : 1 ≤ p) :
    bins2 b = some ⌊p⌋.toNat ∧ nbins b = (b.edges.length - 1) * ⌊p⌋.toNat ∧ edges2 b = some (PcfObj.linspace 0 p (⌊p⌋.toNat + 1)) ∧
      0 < ⌊p⌋.toNat := by
  have n1 : ¬ ("projected" = "1d") := by decide
  have n2 : ¬ ("projected" = "2d") := by decide
  have hf := PcfObj.floor_succ p (by linarith)
  have : 1 ≤ ⌊p⌋ := Int.le_floor.mpr (by simpa using h1)
  have er : PcfObj.runBins .box b = (["rp", "pi"], [b.edges, PcfObj.linspace 0 p (⌊p⌋.toNat + 1)]) := by
    unfold PcfObj.runBins
    rw [if_neg (by rw [h]; exact n1), if_neg (by rw [h]; exact n2), if_pos h]
    simp only [hp, Option.getD_some, hf]
  refine ⟨?_, ?_, ?_, by omega⟩ <;> simp [bins2, edges2, nbins, er, PcfObj.linspace]

/-- Binned separations are within the smoothing length. -/
theorem binOf_near (b : Bins) (periodic : Bool) (box : Pos) (hb : Fine periodic box b) (perp par : ℚ) (h0 : 0 ≤ par) (h1 : 0 ≤ perp)
    (h : binOf b perp par ≠ none) : perp + par ≤ smoothing2 b := by
  have n1 : ¬ ("1d" = "projected") := by decide
  have n2 : ¬ ("2d" = "projected") := by decide
  have np : ¬ ("projected" = "2d") := by decide
  unfold binOf at h
  unfold smoothing2
  rcases hb.mode with hm | ⟨hm, n, hn⟩ | ⟨hm, p, hp, hp1⟩
  · rw [(bins2_1d hm).1] at h
    rw [if_neg (by rw [hm]; decide)]
    exact Pairs.binOf_le b.edges hb.pos _ h
  · rw [(bins2_2d hm hn).1] at h
    simp only [hm, if_true] at h
    rw [if_neg (by rw [hm]; decide)]
    refine Pairs.binOf_le b.edges hb.pos _ fun h0 => h ?_
    unfold Pairs.bin2
    rw [h0]; rfl
  · obtain ⟨e1, e2, e3, e4⟩ := bins2_proj hm hp hp1
    rw [e1] at h
    simp only [hm, np, if_false, e3, Option.getD_some] at h
    rw [if_pos hm, hp]
    have k1 : Pairs.binOf b.edges perp ≠ none := by
      intro h0; apply h; unfold Pairs.bin2; rw [h0]; rfl
    have k2 : Pairs.binOf (PcfObj.linspace 0 p (⌊p⌋.toNat + 1)) par ≠ none := by
      intro h0; apply h; unfold Pairs.bin2; rw [h0]; cases Pairs.binOf b.edges perp <;> rfl
    have l1 := Pairs.binOf_le b.edges hb.pos _ k1
    obtain ⟨j, hj⟩ := Option.ne_none_iff_exists'.mp k2
    obtain ⟨j1, _, j3⟩ := Pairs.binOf_spec _ _ j hj
    have l2 : par ≤ p ^ 2 := by
      rw [List.getD_eq_getElem _ _ j1] at j3
      simp only [PcfObj.linspace, List.getElem_map, List.getElem_range] at j3
      have hm' : j + 1 ≤ ⌊p⌋.toNat := by simp [PcfObj.linspace] at j1; omega
      have hmq : (0 : ℚ) < (⌊p⌋.toNat : ℕ) := by exact_mod_cast e4
      have hjq : ((j + 1 : Nat) : ℚ) ≤ (⌊p⌋.toNat : ℕ) := by exact_mod_cast hm'
      have hj0 : (0 : ℚ) ≤ ((j + 1 : Nat) : ℚ) := by positivity
      simp only [Nat.add_sub_cancel, zero_add, sub_zero] at j3
      have u1 : ((j + 1 : Nat) : ℚ) * (p / (⌊p⌋.toNat : ℕ)) ≤ p := by
        rw [← mul_div_assoc, div_le_iff₀ hmq]; nlinarith
      have u0 : 0 ≤ ((j + 1 : Nat) : ℚ) * (p / (⌊p⌋.toNat : ℕ)) := by positivity
      nlinarith
    simp only [Option.getD_some]
    linarith

theorem diff2_nonneg (periodic : Bool) (L a b : ℚ) : 0 ≤ diff2 periodic L a b := by
  unfold diff2
  split
  · exact Pairs.axisSq_nonneg _ _ _
  · positivity

theorem near_of_bin (los : Int) (periodic : Bool) (box : Pos) (b : Bins) (hb : Fine periodic box b) (p q : Part)
    (h : bin los periodic box b p q ≠ none)
    (hp : p.pos = wrapPos periodic box p.pos ∧ q.pos = wrapPos periodic box q.pos) : Near box (smoothing2 b) p.pos q.pos := by
  have hc := fun h : periodic = true => (hb.cube h).2
  have hL := fun h : periodic = true => (hb.cube h).1
  have e : bin los periodic box b p q = bin0 los periodic box b p q := by
    unfold bin0 bin
    rw [← hp.1, ← hp.2]
  rw [e, bin0_eq los periodic box b hc] at h
  have hs := binOf_near b periodic box hb _ _ (diff2_nonneg _ _ _ _) (add_nonneg (diff2_nonneg _ _ _ _) (diff2_nonneg _ _ _ _)) h
  have hn : ∀ u v : ℚ, ∀ L, (periodic = true → L = box.x) → ∃ i : ℤ, diff2 periodic box.x u v = (u - v + i * L) ^ 2 := by
    intro u v L hLe
    cases hper : periodic with
    | true =>
      rw [hLe hper]
      exact diff2_near true box.x u v fun _ => hL hper
    | false => exact ⟨0, by simp [diff2]⟩
  unfold Near
  unfold order at hs
  split at hs
  · obtain ⟨i, hi⟩ := hn p.pos.y q.pos.y box.y fun h => (hc h).1
    obtain ⟨j, hj⟩ := hn p.pos.z q.pos.z box.z fun h => (hc h).2
    obtain ⟨k, hk⟩ := hn p.pos.x q.pos.x box.x fun h => rfl
    simp only [hi, hj, hk] at hs
    exact ⟨k, i, j, by linarith⟩
  · split at hs
    · obtain ⟨i, hi⟩ := hn p.pos.x q.pos.x box.x fun h => rfl
      obtain ⟨j, hj⟩ := hn p.pos.z q.pos.z box.z fun h => (hc h).2
      obtain ⟨k, hk⟩ := hn p.pos.y q.pos.y box.y fun h => (hc h).1
      simp only [hi, hj, hk] at hs
      exact ⟨i, k, j, by linarith⟩
    · obtain ⟨i, hi⟩ := hn p.pos.x q.pos.x box.x fun h => rfl
      obtain ⟨j, hj⟩ := hn p.pos.y q.pos.y box.y fun h => (hc h).1
      obtain ⟨k, hk⟩ := hn p.pos.z q.pos.z box.z fun h => (hc h).2
      simp only [hi, hj, hk] at hs
      exact ⟨i, j, k, by linarith⟩

theorem wrap_wrap (L x : ℚ) (hL : 0 < L) : Pairs.wrap L (Pairs.wrap L x) = Pairs.wrap L x := by
  have h := Pairs.wrap_range L x hL
  conv_lhs => unfold Pairs.wrap
  have : (Pairs.wrap L x / L).floor = 0 := by
    show ⌊Pairs.wrap L x / L⌋ = 0
    rw [Int.floor_eq_zero_iff]
    exact ⟨div_nonneg h.1 hL.le, (div_lt_one hL).mpr h.2⟩
  unfold Pairs.wrap at this
  rw [this]
  simp [Pairs.wrap]

theorem wrapPos_wrapPos (periodic : Bool) (box p : Pos) (h : periodic = true → 0 < box.x ∧ box.y = box.x ∧ box.z = box.x) :
    wrapPos periodic box p = wrapPos periodic box (wrapPos periodic box p) := by
  unfold wrapPos
  cases hp : periodic with
  | false => rfl
  | true =>
    obtain ⟨h1, h2, h3⟩ := h hp
    simp only [if_true, h2, h3, wrap_wrap _ _ h1]

end NBK.BoxTpcf
