import Verif.Recon.SymProps
import Mathlib.Data.Rat.Floor
import Mathlib.Data.Fintype.Fin

/-! # C142: the mesh of 2 x 2 x 1 cells -/
set_option linter.unusedSimpArgs false

namespace NBK.Recon

/-- The window of cloud-in-cell in a box of two cells. -/
def wave2 (x : ℚ) : ℚ := |1 - (x - 2 * ⌊x / 2⌋)|

theorem wave2_period (x : ℚ) (z : ℤ) : wave2 (x + 2 * z) = wave2 x := by
  unfold wave2
  rw [show (x + 2 * (z : ℚ)) / 2 = x / 2 + z by ring, Int.floor_add_intCast]
  push_cast
  congr 1
  ring

theorem wave2_neg (x : ℚ) : wave2 (-x) = wave2 x := by
  unfold wave2
  by_cases h : (⌊x / 2⌋ : ℚ) = x / 2
  · have h2 : ⌊-x / 2⌋ = -⌊x / 2⌋ := by
      rw [show -x / 2 = ((-⌊x / 2⌋ : ℤ) : ℚ) by push_cast; rw [h]; ring, Int.floor_intCast]
    rw [h2]
    push_cast
    rw [h]
    congr 1
    ring
  · have hlt : (⌊x / 2⌋ : ℚ) < x / 2 := lt_of_le_of_ne (Int.floor_le _) h
    have h2 : ⌊-x / 2⌋ = -⌊x / 2⌋ - 1 := by
      rw [Int.floor_eq_iff]
      have := Int.lt_floor_add_one (x / 2)
      push_cast
      constructor <;> linarith
    rw [h2]
    push_cast
    rw [abs_sub_comm]
    congr 1
    ring

/-- The two digits of a cell or of a mode. -/
def hi (c : Fin 4) : ℤ := (c.val / 2 : Nat)
def lo (c : Fin 4) : ℤ := (c.val % 2 : Nat)

def share4 (p : V3) (c : Fin 4) : ℚ := wave2 (p 0 - hi c) * wave2 (p 1 - lo c)

def sign (q c : Fin 4) : ℚ := (-1) ^ (hi q * hi c + lo q * lo c).toNat

/-- The transforms of this mesh. -/
def fft4 : Fft 4 4 where
  r2c f q := ((∑ c, sign q c * f c) / 4, 0)
  c2r g c := ∑ q, sign q c * (g q).1
  k q := ![hi q, lo q, 0]

def swapBits : Equiv.Perm (Fin 4) := Equiv.swap 1 2
def flipHi : Equiv.Perm (Fin 4) := (Equiv.swap 0 2).trans (Equiv.swap 1 3)

/-- A shift by one cell. -/
def shiftX : Sym share4 fft4 where
  axes := Equiv.refl _
  flip _ := 1
  shift := ![1, 0, 0]
  cell := flipHi
  mode := Equiv.refl _
  phase q := ((-1) ^ (hi q).toNat, 0)
  opp _ := false
  good _ := True
  flip2 _ := by norm_num
  window p c := by
    unfold share4
    simp only [Equiv.refl_apply, one_mul, Matrix.cons_val_zero, Matrix.cons_val_one]
    congr 1
    · fin_cases c
      · show wave2 (p 0 + 1 - ((1 : ℤ) : ℚ)) = wave2 (p 0 - ((0 : ℤ) : ℚ)); congr 1; push_cast; ring
      · show wave2 (p 0 + 1 - ((1 : ℤ) : ℚ)) = wave2 (p 0 - ((0 : ℤ) : ℚ)); congr 1; push_cast; ring
      · show wave2 (p 0 + 1 - ((0 : ℤ) : ℚ)) = wave2 (p 0 - ((1 : ℤ) : ℚ))
        rw [← wave2_period (p 0 - ((1 : ℤ) : ℚ)) 1]; congr 1; push_cast; ring
      · show wave2 (p 0 + 1 - ((0 : ℤ) : ℚ)) = wave2 (p 0 - ((1 : ℤ) : ℚ))
        rw [← wave2_period (p 0 - ((1 : ℤ) : ℚ)) 1]; congr 1; push_cast; ring
    · fin_cases c <;> (simp only [add_zero]; rfl)
  wave q _ d := by simp
  forth f q := by
    simp only [fft4, Fin.sum_univ_four, Cx.mul, Cx.conjIf, Equiv.refl_apply]
    have e0 : flipHi.symm 0 = 2 := by decide
    have e1 : flipHi.symm 1 = 3 := by decide
    have e2 : flipHi.symm 2 = 0 := by decide
    have e3 : flipHi.symm 3 = 1 := by decide
    rw [e0, e1, e2, e3]
    fin_cases q <;> simp [sign, hi, lo] <;> ring
  back g g' h c := by
    have h' : ∀ q, (g' q).1 = (-1) ^ (hi q).toNat * (g q).1 := fun q => by
      have := congrArg Prod.fst (h q)
      simpa [Cx.mul, Cx.conjIf] using this
    simp only [fft4, Fin.sum_univ_four, h']
    have e0 : flipHi 0 = 2 := by decide
    have e1 : flipHi 1 = 3 := by decide
    have e2 : flipHi 2 = 0 := by decide
    have e3 : flipHi 3 = 1 := by decide
    fin_cases c <;> simp [sign, hi, lo, e0, e1, e2, e3] <;> ring
  homog e g c := by
    simp only [fft4, Cx.smul, Finset.mul_sum]
    exact Finset.sum_congr rfl fun q _ => by ring

/-- The first two axes exchanged. -/
def swapXY : Sym share4 fft4 where
  axes := Equiv.swap 0 1
  flip _ := 1
  shift _ := 0
  cell := swapBits
  mode := swapBits
  phase _ := (1, 0)
  opp _ := false
  good _ := True
  flip2 _ := by norm_num
  window p c := by
    unfold share4
    have e0 : (Equiv.swap (0 : Fin 3) 1) 0 = 1 := by decide
    have e1 : (Equiv.swap (0 : Fin 3) 1) 1 = 0 := by decide
    simp only [one_mul, add_zero, e0, e1]
    rw [mul_comm]
    have h1 : lo (swapBits c) = hi c := by revert c; decide
    have h2 : hi (swapBits c) = lo c := by revert c; decide
    rw [h1, h2]
  wave q _ d := by
    have e0 : (Equiv.swap (0 : Fin 3) 1) 0 = 1 := by decide
    have e1 : (Equiv.swap (0 : Fin 3) 1) 1 = 0 := by decide
    have e2 : (Equiv.swap (0 : Fin 3) 1) 2 = 2 := by decide
    have h1 : lo (swapBits q) = hi q := by revert q; decide
    have h2 : hi (swapBits q) = lo q := by revert q; decide
    fin_cases d
    · simp [fft4, h1, h2, e0]
    · simp [fft4, h1, h2, e1]
    · simp [fft4, h1, h2, e2]
  forth f q := by
    simp only [fft4, Fin.sum_univ_four, Cx.mul, Cx.conjIf]
    have e0 : swapBits.symm 0 = 0 := by decide
    have e1 : swapBits.symm 1 = 2 := by decide
    have e2 : swapBits.symm 2 = 1 := by decide
    have e3 : swapBits.symm 3 = 3 := by decide
    have f0 : swapBits 0 = 0 := by decide
    have f1 : swapBits 1 = 2 := by decide
    have f2 : swapBits 2 = 1 := by decide
    have f3 : swapBits 3 = 3 := by decide
    rw [e0, e1, e2, e3]
    fin_cases q <;> simp [sign, hi, lo, f0, f1, f2, f3] <;> ring
  back g g' h c := by
    have h' : ∀ q, (g' (swapBits q)).1 = (g q).1 := fun q => by
      have := congrArg Prod.fst (h q)
      simpa [Cx.mul, Cx.conjIf] using this
    have f0 : swapBits 0 = 0 := by decide
    have f1 : swapBits 1 = 2 := by decide
    have f2 : swapBits 2 = 1 := by decide
    have f3 : swapBits 3 = 3 := by decide
    have g0 := h' 0
    have g1 := h' 1
    have g2 := h' 2
    have g3 := h' 3
    rw [f0] at g0
    rw [f1] at g1
    rw [f2] at g2
    rw [f3] at g3
    simp only [fft4, Fin.sum_univ_four, g0, g1, g2, g3]
    fin_cases c <;> simp [sign, hi, lo, f0, f1, f2, f3] <;> ring
  homog e g c := by
    simp only [fft4, Cx.smul, Finset.mul_sum]
    exact Finset.sum_congr rfl fun q _ => by ring

/-- The first axis reversed; the modes of this mesh are their own opposites. -/
def flipX : Sym share4 fft4 where
  axes := Equiv.refl _
  flip := ![-1, 1, 1]
  shift := ![0, 0, 0]
  cell := Equiv.refl _
  mode := Equiv.refl _
  phase _ := (1, 0)
  opp _ := false
  good q := hi q = 0
  flip2 d := by fin_cases d <;> norm_num
  window p c := by
    unfold share4
    simp only [Equiv.refl_apply, Matrix.cons_val_zero, Matrix.cons_val_one, add_zero, one_mul]
    congr 1
    rw [← wave2_neg, ← wave2_period (p 0 - (hi c : ℚ)) (hi c)]
    congr 1
    push_cast
    ring
  wave q hq d := by
    have : hi q = 0 := hq
    fin_cases d <;> simp [fft4, this]
  forth f q := by simp [fft4, Cx.mul, Cx.conjIf]
  back g g' h c := by
    have h' : ∀ q, (g' q).1 = (g q).1 := fun q => by
      have := congrArg Prod.fst (h q)
      simpa [Cx.mul, Cx.conjIf] using this
    simp only [fft4, h', Equiv.refl_apply]
  homog e g c := by
    simp only [fft4, Cx.smul, Finset.mul_sum]
    exact Finset.sum_congr rfl fun q _ => by ring

/-- Two galaxies and three randoms, on two ranks. -/
def gal : List (List V3) := [[![0, 0, 0]], [![1, 0, 0]]]
def rnd : List (List V3) := [[![0, 1, 0], ![1, 1, 0]], [![1, 0, 0]]]
def attrs4 : Attrs := ⟨2, 1 / 2, ![0, 1, 0], true⟩

theorem wave2_int : wave2 0 = 1 ∧ wave2 1 = 0 ∧ wave2 (-1) = 0 := by
  refine ⟨?_, ?_, ?_⟩ <;> decide +kernel

/-- The field of these catalogs. -/
def field4 (data ran : List (List V3)) (scheme : Scheme) : Option (List ℚ) :=
  match run share4 fft4 attrs4 (fun _ => 1) 1 scheme data ran with
  | .ok (some f) => some [f 0, f 1, f 2, f 3]
  | _ => none

/-- It is not zero, moves with the galaxies, and is the same when every galaxy is doubled. -/
example : field4 gal rnd .LGS = some [2, -4 / 3, 2 / 3, -4 / 3] ∧
    field4 (gal.map fun l => l.map shiftX.pos) (rnd.map fun l => l.map shiftX.pos) .LGS = some [2 / 3, -4 / 3, 2, -4 / 3] ∧
    field4 (gal ++ gal) rnd .LGS = field4 gal rnd .LGS := by decide +kernel

/-- The hypotheses of `run_moved` for a reflection: these galaxies have no structure along the first axis. -/
example : ∀ q, ¬ flipX.good q → fft4.r2c (density share4 gal.flatten) q = (0, 0) := by
  show ∀ q, ¬ hi q = 0 → fft4.r2c (density share4 gal.flatten) q = (0, 0)
  decide +kernel

example : ∀ d, flipX.flip d * attrs4.los (flipX.axes d) = 1 * attrs4.los (flipX.axes d) := by decide +kernel

/-- The hypotheses of `run_uniform`. -/
example : ∀ q, fft4.k q ≠ (fun _ => 0) → fft4.r2c (density share4 [![0, 0, 0], ![1, 0, 0], ![0, 1, 0], ![1, 1, 0]]) q = (0, 0) := by
  have h : ∀ q : Fin 4, q ≠ 0 → fft4.r2c (density share4 [![0, 0, 0], ![1, 0, 0], ![0, 1, 0], ![1, 1, 0]]) q = (0, 0) := by decide +kernel
  intro q hq
  refine h q ?_
  rintro rfl
  apply hq
  funext d
  fin_cases d <;> rfl

end NBK.Recon
