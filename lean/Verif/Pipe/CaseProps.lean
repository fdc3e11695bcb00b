import Verif.Pipe.DirectProps
import Mathlib.Tactic.NormNum

/-! # C136: a mesh of four cells, and what goes wrong -/
set_option linter.unusedSimpArgs false
namespace NBK.Pipe
open Project (Cx)

/-- C136, negation: if the total weight is not positive the particles do not matter: the field is uniform, and the power vanishes in all modes in which a
uniform field does, while the shot noise does not. -/
theorem no_weight (w : World) (hn : 0 < w.ncells) (mc : Machine) (V : ℚ) (comp : Nat → ℚ) (rows : List (List Paint.Row)) (hW : totalW rows ≤ 0)
    (f : Fld) (h : compute w mc V (.particles comp none none rows) = .ok f) (m : Nat) (hm : sum ((List.range w.ncells).map fun x => w.tw m x) = ⟨0, 0⟩)
    (c2 : Nat → Cx) : f.coef m = ⟨0, 0⟩ ∧ power w V f.coef c2 m = ⟨0, 0⟩ ∧ f.shot = some (V * totalW2 rows / totalW rows ^ 2) := by
  obtain ⟨a, -, c⟩ := compute_direct w hn mc V comp none none rows f h
  have h0 : f.coef m = ⟨0, 0⟩ := by
    rw [a, if_neg (not_lt.mpr hW)]
    have := sum_scale (1 / (w.ncells : ℚ)) ((List.range w.ncells).map fun x => w.tw m x)
    rw [List.map_map] at this
    have e : (fun x => scale (1 / (w.ncells : ℚ)) (w.tw m x)) = scale (1 / (w.ncells : ℚ)) ∘ fun x => w.tw m x := rfl
    rw [e, this, hm]
    simp [scale]
  refine ⟨h0, ?_, c⟩
  unfold power
  split
  · rfl
  · rw [h0]; simp [scale, mul]

/-- `exp(-i pi n / 2)`. -/
def quarter (n : Nat) : Cx :=
  match n % 4 with
  | 0 => ⟨1, 0⟩
  | 1 => ⟨0, -1⟩
  | 2 => ⟨-1, 0⟩
  | _ => ⟨0, 1⟩

theorem quarter_mod (n : Nat) : quarter (n % 4) = quarter n := by unfold quarter; rw [Nat.mod_mod]

theorem quarter_add (a b : Nat) : quarter (a + b) = mul (quarter a) (quarter b) := by
  rw [← quarter_mod a, ← quarter_mod b, ← quarter_mod (a + b), Nat.add_mod]
  have ha : a % 4 < 4 := Nat.mod_lt _ (by norm_num)
  have hb : b % 4 < 4 := Nat.mod_lt _ (by norm_num)
  generalize a % 4 = x at *
  generalize b % 4 = y at *
  have : ∀ x < 4, ∀ y < 4, quarter ((x + y) % 4) = mul (quarter x) (quarter y) := by decide +kernel
  exact this x ha y hb

theorem quarter_unit (n : Nat) : norm2 (quarter n) = 1 := by
  rw [← quarter_mod]
  have hn : n % 4 < 4 := Nat.mod_lt _ (by norm_num)
  have : ∀ x < 4, norm2 (quarter x) = 1 := by decide +kernel
  exact this _ hn

/-- Four cells in a row, the nearest grid point, three stored modes. -/
def world : World where
  ncells := 4
  nmodes := 3
  dep p x := if p % 4 = x % 4 then 1 else 0
  tw m x := quarter (m * x)
  back m x := scale (if m = 1 then 2 else 1) (conj (quarter (m * x)))
  zero := 0
  mode m := ⟨(m : ℚ) ^ 2, m, 0, m = 1, if m = 1 then 2 else 1, ⟨0, 0⟩⟩
  sep x := ⟨(x : ℚ) ^ 2, x, 0, false, 1, ⟨0, 0⟩⟩
  pi := 3
  root q := q

/-- The shift by one cell. -/
def one : Shift world where
  pos p := p + 1
  cell x := (x + 1) % 4
  phase m := quarter m
  perm := by decide +kernel
  dep := by
    intro p x
    show (if (p + 1) % 4 = (x + 1) % 4 % 4 then (1 : ℚ) else 0) = if p % 4 = x % 4 then 1 else 0
    have : ((p + 1) % 4 = (x + 1) % 4 % 4) ↔ p % 4 = x % 4 := by omega
    simp only [this]
  tw := by
    intro m x
    show quarter (m * ((x + 1) % 4)) = mul (quarter m) (quarter (m * x))
    rw [← quarter_add, ← quarter_mod, Nat.mul_mod, Nat.mod_mod, ← Nat.mul_mod, quarter_mod]
    congr 1
    ring
  unit := quarter_unit

def row (p : Nat) (wt : ℚ) : Paint.Row := ⟨p, wt, 1, true⟩

/-- Three particles, one of them not selected. -/
def serial : Machine :=
  ⟨fun _ => .particles (fun _ => 1) none none [[row 0 1, row 1 3, ⟨2, 5, 1, false⟩]], fun _ => [0], 1, [[[0, 1, 2]]], [[[0, 1, 2, 3]]]⟩

/-- The same on three ranks, in another order and with other slabs. -/
def parallel : Machine :=
  ⟨fun _ => .particles (fun _ => 1) none none [[⟨2, 5, 1, false⟩], [], [row 1 3, row 0 1]], fun _ => [0, 1], 2, [[[2], []], [], [[1, 0]]], [[[3, 1]], [[0], [2]], []]⟩

def src : FftObj.Src := .catalog 0 0 (some [2, 1, 1]) (some [4, 1, 1])
def args : FftObj.Args := { mode := "1d", dx := some 1, xmin := 1 / 2, xmax := some 3 }

theorem serial_fits : Fits serial := ⟨by decide, by
  intro s comp an as rows h
  simp only [serial, Content.particles.injEq] at h
  obtain ⟨-, -, -, rfl⟩ := h
  decide⟩

theorem parallel_fits : Fits parallel := ⟨by decide, by
  intro s comp an as rows h
  simp only [parallel, Content.particles.injEq] at h
  obtain ⟨-, -, -, rfl⟩ := h
  decide⟩

theorem case_ranks (k : FftObj.Kind) (g : FftObj.Args) (d : ℚ) (hd : 0 < d) (hg : g.dx = some d) (sec : Option FftObj.Src) :
    call world serial k src sec g = call world parallel k src sec g :=
  call_ranks_partial world (by decide) serial parallel ⟨by decide, by decide⟩
    (fun _ => ⟨rfl, rfl, rfl, by decide +kernel⟩) serial_fits parallel_fits k src sec g (bins_given world serial k src sec g d hd hg)

/-- A call in which the fields are known. -/
def known (w : World) (mc : Machine) (F : ℚ → Fld) (k : FftObj.Kind) (first : FftObj.Src) (g : FftObj.Args) : Except Err FftObj.Obj :=
  (liftObj (checked w k first none g)).bind fun c =>
    if c.2.1.nmesh ≠ c.2.2.nmesh then .error .leftOut
    else liftObj (FftObj.run (envOf w mc c.2.1.box.prod c.2.1.src (F c.2.1.box.prod) (F c.2.1.box.prod)) k c.1 c.2.1 c.2.2)

theorem call_known (w : World) (mc : Machine) (F : ℚ → Fld) (h : ∀ V s, compute w mc V (mc.content s) = .ok (F V)) (k : FftObj.Kind) (first : FftObj.Src)
    (g : FftObj.Args) : call w mc k first none g = known w mc F k first g := by
  unfold call known run second
  simp only [h, ok_bind, ite_self]

/-- The field of particles with positive weight. -/
def fieldOf (w : World) (rows : List (List Paint.Row)) (V : ℚ) : Fld :=
  ⟨fun m => scale (1 / totalW rows) (direct w m (Paint.selected rows)), some (Paint.selected rows).length, some (V * totalW2 rows / totalW rows ^ 2)⟩

theorem compute_fieldOf (w : World) (hn : 0 < w.ncells) (mc : Machine) (hm : 0 < mc.maxc) (rows : List (List Paint.Row)) (hP : rows.length ≤ 2 * mc.maxc)
    (hW : 0 < totalW rows) (V : ℚ) : compute w mc V (.particles (fun _ => 1) none none rows) = .ok (fieldOf w rows V) := by
  obtain ⟨f, hf⟩ := compute_ok w mc V (.particles (fun _ => 1) none none rows) hm (by
    intro _ _ _ _ h
    simp only [Content.particles.injEq] at h
    obtain ⟨-, -, -, rfl⟩ := h
    exact hP)
  obtain ⟨a, b, c⟩ := compute_direct w hn mc V _ none none rows f hf
  rw [hf]
  congr 1
  obtain ⟨fc, fn, fs⟩ := f
  simp only at a b c
  unfold fieldOf
  rw [Fld.mk.injEq]
  exact ⟨funext fun m => by rw [a, if_pos hW], by rw [b]; rfl, by rw [c]; rfl⟩

/-- What is found: `P = V |1 - 3 i|^2 / 4^2` and `V |1 - 3|^2 / 4^2` with `V = 2`, and the shot noise `V (1 + 9) / 4^2`. -/
theorem case_values :
    (call world serial .power src none args).toOption.map (fun o => (o.stat.data.map fun c => (c.name, c.vals), o.attrs.N1, o.attrs.shotnoise)) =
      some ([("k", [.fin 1, .fin 2]), ("power.real", [.fin (5 / 4), .fin (1 / 2)]), ("power.imag", [.fin 0, .fin 0]), ("modes", [.fin 2, .fin 1])],
        some 2, some (5 / 4)) := by
  rw [call_known world serial (fieldOf world [[row 0 1, row 1 3, ⟨2, 5, 1, false⟩]])
    (fun V s => compute_fieldOf world (by decide) serial (by decide) _ (by decide) (by decide +kernel) V)]
  decide +kernel

/-- Three selected particles on three ranks with a chunk size of 1. -/
def many : Machine :=
  ⟨fun _ => .particles (fun _ => 1) none none [[row 0 1], [row 1 3], [row 2 5]], fun _ => [0, 1, 2], 1, serial.modes, serial.cells⟩

/-- The same on one rank. -/
def alone : Machine :=
  ⟨fun _ => .particles (fun _ => 1) none none [[row 0 1, row 1 3, row 2 5]], fun _ => [0], 1, serial.modes, serial.cells⟩

/-- C136, negation: with more ranks than twice the chunk size the same catalog may not be painted, although it is on one rank. -/
theorem ranks_fail :
    (∀ s, SameContent (many.content s) (alone.content s)) ∧ SameLayout many alone ∧
    call world many .power src none args = .error (.paint .runtime) ∧ ∃ o, call world alone .power src none args = .ok o := by
  refine ⟨fun _ => ⟨rfl, rfl, rfl, .refl _⟩, ⟨.refl _, .refl _⟩, ?_, ?_⟩
  · have hl : ∀ s, Paint.loop (fun _ => [0, 1, 2]) 1 [[row 0 1], [row 1 3], [row 2 5]] 1 0 1 s = .error .runtime := by
      intro s
      rw [Paint.loop, if_pos (by decide)]
      have : Paint.dochunk (fun _ => [0, 1, 2]) 1 [[row 0 1], [row 1 3], [row 2 5]] 0 1 s = none := by
        unfold Paint.dochunk
        exact if_pos (by decide +kernel)
      rw [this]
      rfl
    have hp : ∀ V, Paint.paint (fun _ => [0, 1, 2]) 1 [[row 0 1], [row 1 3], [row 2 5]] 4 V true = .error .runtime := by
      intro V
      unfold Paint.paint
      have : (([[row 0 1], [row 1 3], [row 2 5]] : List (List Paint.Row)).map List.length).foldl max 0 = 1 := by decide
      rw [this, hl]
    have hc : ∀ V s, compute world many V (many.content s) = .error (.paint .runtime) := by
      intro V s
      show (match Paint.paint (fun _ => [0, 1, 2]) 1 [[row 0 1], [row 1 3], [row 2 5]] 4 V true with
        | .error e => (.error (.paint e) : Except Err Fld)
        | .ok r => _) = _
      rw [hp]
    have hch : (checked world .power src none args).toOption.map (fun c => decide (c.2.1.nmesh = c.2.2.nmesh)) = some true := by decide +kernel
    unfold call
    cases hk : checked world .power src none args with
    | error e => rw [hk] at hch; cases hch
    | ok c =>
      rw [hk] at hch
      simp [Except.toOption] at hch
      unfold run
      simp only [liftObj, ok_bind, hch, ne_eq, not_true, if_false, hc, error_bind]
  · rw [call_known world alone (fieldOf world [[row 0 1, row 1 3, row 2 5]])
      (fun V s => compute_fieldOf world (by decide) alone (by decide) _ (by decide) (by decide +kernel) V)]
    have : (known world alone (fieldOf world [[row 0 1, row 1 3, row 2 5]]) .power src args).toOption.isSome = true := by decide +kernel
    cases hk : known world alone (fieldOf world [[row 0 1, row 1 3, row 2 5]]) .power src args with
    | error e => rw [hk] at this; cases this
    | ok o => exact ⟨o, rfl⟩

/-- The particles moved by one cell. -/
def moved : Machine :=
  { parallel with content := fun _ => .particles (fun _ => 1) none none [[row 1 1, row 2 3, ⟨3, 5, 1, false⟩]] }

example (k : FftObj.Kind) (g : FftObj.Args) (d : ℚ) (hd : 0 < d) (hg : g.dx = some d) :
    call world serial k src none g = call world moved k src none g :=
  call_shifted world (by decide) one serial moved ⟨by decide, by decide⟩ serial_fits ⟨by decide, by
    intro s comp an as rows h
    simp only [moved, Content.particles.injEq] at h
    obtain ⟨-, -, -, rfl⟩ := h
    decide⟩ (fun _ => rfl) k src none g (bins_given world serial k src none g d hd hg)

-- bins of unique values of k
example (a : FftObj.Attrs) (h1 : a.box = [2, 1, 1]) : BinsOk world serial .power a := by
  right
  have h0 : FftObj.fundamental ⟨world.pi, world.root, fun _ _ _ _ => [], fun _ => none, fun _ => none⟩ .power a.box a.nmesh = 3 := by
    unfold FftObj.fundamental; rw [h1]; simp only; decide +kernel
  refine ⟨?_, ?_, ?_⟩ <;> simp only [h0] <;> decide +kernel

-- particles of negative total weight
example : totalW [[row 0 1, row 1 (-3)]] ≤ 0 ∧ totalW2 [[row 0 1, row 1 (-3)]] = 10 ∧
    sum ((List.range world.ncells).map fun x => world.tw 1 x) = ⟨0, 0⟩ := by
  refine ⟨?_, ?_, ?_⟩ <;> decide +kernel

-- one particle
example : norm2 (window world 1 (row 2 7).pos) = 1 ∧ Paint.selected [[row 2 7]] = [row 2 7] := by
  refine ⟨?_, ?_⟩ <;> decide +kernel

end NBK.Pipe
