import Verif.Pipe.Props

/-! # C136: what the power of particles is: direct sums, weights, doubling, shifts, sign -/
set_option linter.unusedSimpArgs false
namespace NBK.Pipe
open Project (Cx)

theorem scale_scale (a b : ℚ) (c : Cx) : scale a (scale b c) = scale (a * b) c := by
  unfold scale; apply ext <;> simp only [mul_assoc]

theorem sum_scale (q : ℚ) (l : List Cx) : sum (l.map (scale q)) = scale q (sum l) := by
  unfold sum scale
  simp only [List.map_map, Function.comp_def]
  apply ext <;> simp only <;> rw [← List.sum_map_mul_left]

theorem mul_sum (a : Cx) (l : List Cx) : sum (l.map (mul a)) = mul a (sum l) := by
  induction l with
  | nil => unfold sum mul; simp
  | cons b l ih =>
    have e : ∀ (x : Cx) (l : List Cx), sum (x :: l) = ⟨x.re + (sum l).re, x.im + (sum l).im⟩ := fun _ _ => rfl
    rw [List.map_cons, e, e, ih]
    unfold mul
    apply ext <;> simp only <;> ring

theorem mul_scale (q : ℚ) (a b : Cx) : scale q (mul a b) = mul a (scale q b) := by
  unfold scale mul; apply ext <;> simp only <;> ring

/-- The square of the modulus. -/
def norm2 (c : Cx) : ℚ := c.re * c.re + c.im * c.im

/-! ## The estimator -/

/-- The modes of an auto power of particles: the volume times the squared modulus of the direct sum over the total weight. -/
def estimator (w : World) (mc : Machine) (V : ℚ) (comp : Nat → ℚ) (rows : List (List Paint.Row)) : List (List (List Project.Mode)) :=
  mc.modes.map fun rank => rank.map fun slab => slab.map fun m =>
    { w.mode m with y := ⟨if m = w.zero then 0 else V * comp m ^ 2 * norm2 (direct w m (Paint.selected rows)) / totalW rows ^ 2, 0⟩ }

theorem estimator_eq (w : World) (hn : 0 < w.ncells) (mc : Machine) (V : ℚ) (comp : Nat → ℚ) (an : Option Nat) (as : Option ℚ)
    (rows : List (List Paint.Row)) (hW : 0 < totalW rows) (f : Fld) (h : compute w mc V (.particles comp an as rows) = .ok f) :
    stat w mc V f.coef f.coef .power = estimator w mc V comp rows := by
  obtain ⟨h1, -, -⟩ := compute_direct w hn mc V comp an as rows f h
  suffices hp : ∀ m, power w V f.coef f.coef m =
      ⟨if m = w.zero then 0 else V * comp m ^ 2 * norm2 (direct w m (Paint.selected rows)) / totalW rows ^ 2, 0⟩ by
    unfold stat estimator
    simp only [hp]
  intro m
  unfold power
  by_cases hz : m = w.zero
  · rw [if_pos hz, if_pos hz]
  · rw [if_neg hz, if_neg hz, h1, if_pos hW]
    unfold scale mul conj norm2
    apply ext <;> simp only <;> field_simp <;> ring

/-- C136: the columns of the auto power of particles with positive total weight are the binned means of the estimator, `N1`, `N2` and the shot noise those
of the selected particles. -/
theorem call_direct (w : World) (hn : 0 < w.ncells) (mc : Machine) (first : FftObj.Src) (g : FftObj.Args) (m1 : FftObj.Mesh)
    (hm : FftObj.castSource 0 g.box g.nmesh first = .ok m1) (comp : Nat → ℚ) (rows : List (List Paint.Row))
    (hc : mc.content m1.src = .particles comp none none rows) (hW : 0 < totalW rows) (o : FftObj.Obj)
    (h : call w mc .power first none g = .ok o) :
    ∃ ed, o.stat.edges.head? = some ed ∧
      o.stat.data = FftObj.statData .power (g.mode = "1d") ed (FftObj.muEdges .power (if g.mode = "1d" then 1 else g.Nmu))
        (estimator w mc m1.box.prod comp rows) ((g.poles.getD []).map Int.toNat) ∧
      o.attrs.N1 = some (Paint.selected rows).length ∧ o.attrs.N2 = some (Paint.selected rows).length ∧
      o.attrs.shotnoise = some (m1.box.prod * totalW2 rows / totalW rows ^ 2) := by
  obtain ⟨a1, a2, f1, f2, h1, h2, h3, h4⟩ := call_new w mc .power first none g o h
  have e : a1 = m1 ∧ a2 = m1 := by
    unfold FftObj.castBoth at h1
    rw [hm] at h1
    simp only [ok_bind, FftObj.castSecond] at h1
    split at h1
    · cases h1
    · split at h1
      · cases h1
      · cases h1; exact ⟨rfl, rfl⟩
  obtain ⟨rfl, rfl⟩ := e
  have hs : FftObj.isSame a2 a2 = true := by simp [FftObj.isSame]
  rw [if_pos hs] at h3
  subst h3
  rw [hc] at h2
  obtain ⟨-, c2, c3⟩ := compute_direct w hn mc _ comp none none rows f2 h2
  obtain ⟨hmode, los, -, -, -, b1, b2, hb, hrun⟩ := (FftObj.new_eq _ _ _ _ _ _).mp h4
  rw [h1] at hb
  cases hb
  obtain ⟨ed, cs, -, -, -, -, rfl⟩ := FftObj.run_ok _ _ _ _ _ hmode _ hrun
  have hst : (envOf w mc a2.box.prod a2.src f2 f2).stat3d .power a2.nmesh a2.src a2.src = estimator w mc a2.box.prod comp rows :=
    estimator_eq w hn mc _ comp none none rows hW f2 h2
  refine ⟨ed, ?_, ?_, ?_, ?_, ?_⟩
  · unfold FftObj.outStat
    simp only
    split <;> rfl
  · have : ∀ at' : FftObj.Attrs, at'.nmesh = a2.nmesh → (FftObj.outStat (envOf w mc a2.box.prod a2.src f2 f2) .power at' a2 a2 ed cs).data =
        FftObj.statData .power (at'.mode = "1d") ed (FftObj.muEdges .power (if at'.mode = "1d" then 1 else at'.Nmu))
          (estimator w mc a2.box.prod comp rows) (at'.poles.map Int.toNat) := by
      intro at' hat
      unfold FftObj.outStat
      simp only [hat, hst, FftObj.usedNmu]
      split <;> rfl
    exact this _ rfl
  · simp [FftObj.outAttrs, envOf, c2]
  · simp [FftObj.outAttrs, envOf, c2]
  · simp [FftObj.outAttrs, envOf, c3, hs]

/-- A number that is nan or not negative. -/
def NonNeg : Binned.Val → Prop
  | .fin q => 0 ≤ q
  | .nan => True
  | _ => False

theorem visible_nonneg (mu : List ℚ) (x2 : List ℚ) (f : Project.Mode → ℚ) (ranks : List (List (List Project.Mode)))
    (h : ∀ m ∈ Project.modes ranks, 0 ≤ f m) (i j : Nat) : 0 ≤ Project.visible mu (Project.binSum x2 mu f ranks) i j := by
  have e : ∀ b, 0 ≤ Project.binSum x2 mu f ranks b := by
    intro b
    rw [Project.binSum_eq]
    apply List.sum_nonneg
    intro q hq
    obtain ⟨m, hm, rfl⟩ := List.mem_map.mp hq
    exact h m (List.mem_of_mem_filter hm)
  unfold Project.visible Project.entry
  split
  · exact add_nonneg (e _) (e _)
  · exact e _

theorem visible_zero (mu : List ℚ) (x2 : List ℚ) (f : Project.Mode → ℚ) (ranks : List (List (List Project.Mode)))
    (h : ∀ m ∈ Project.modes ranks, f m = 0) (i j : Nat) : Project.visible mu (Project.binSum x2 mu f ranks) i j = 0 := by
  have h1 := visible_nonneg mu x2 f ranks (fun m hm => (h m hm).ge) i j
  have e : ∀ b, Project.binSum x2 mu f ranks b = 0 := by
    intro b
    rw [Project.binSum_eq]
    apply List.sum_eq_zero
    intro q hq
    obtain ⟨m, hm, rfl⟩ := List.mem_map.mp hq
    exact h m (List.mem_of_mem_filter hm)
  unfold Project.visible Project.entry
  split <;> simp [e]

theorem head_poles (poles : List Nat) : (Project.allPoles poles).headD 0 = 0 := by
  unfold Project.allPoles
  split
  · rename_i h
    have hmem : 0 ∈ poles := by simpa using h
    have hs : (poles.mergeSort (· ≤ ·)).Pairwise (fun a b => (decide (a ≤ b)) = true) :=
      List.pairwise_mergeSort (fun a b c => by simp; omega) (fun a b => by simp; omega) poles
    have hm : 0 ∈ poles.mergeSort (· ≤ ·) := List.mem_mergeSort.mpr hmem
    cases hc : poles.mergeSort (· ≤ ·) with
    | nil => rfl
    | cons a l =>
      rw [hc] at hm hs
      rcases List.mem_cons.mp hm with h | h
      · exact h.symm
      · have := List.rel_of_pairwise_cons hs h; simp at this; simpa using this
  · rfl

/-- C136: the auto power of particles is not negative and real in every bin (or nan, where there are no modes), if the volume is not negative. -/
theorem auto_sign (w : World) (mc : Machine) (V : ℚ) (hV : 0 ≤ V) (comp : Nat → ℚ) (rows : List (List Paint.Row)) (b : Bool) (ed mu : List ℚ)
    (poles : List Nat) (c : Binned.Col) (hc : c ∈ FftObj.statData .power b ed mu (estimator w mc V comp rows) poles) :
    (c.name = "power.real" → ∀ v ∈ c.vals, NonNeg v) ∧ (c.name = "power.imag" → ∀ v ∈ c.vals, v = .fin 0 ∨ v = .nan) := by
  have hy : ∀ m ∈ Project.modes (estimator w mc V comp rows), 0 ≤ m.y.re ∧ m.y.im = 0 := by
    intro m hm
    unfold estimator at hm
    rw [modes_map] at hm
    obtain ⟨i, -, rfl⟩ := List.mem_map.mp hm
    refine ⟨?_, rfl⟩
    show 0 ≤ (if i = w.zero then _ else _)
    split
    · exact le_refl _
    · apply div_nonneg _ (sq_nonneg _)
      apply mul_nonneg (mul_nonneg hV (sq_nonneg _))
      unfold norm2
      exact add_nonneg (mul_self_nonneg _) (mul_self_nonneg _)
  have hw : ∀ m ∈ Project.modes (estimator w mc V comp rows), (0 : ℚ) ≤ m.w := fun m _ => Nat.cast_nonneg _
  have hre : ∀ m ∈ Project.modes (estimator w mc V comp rows), 0 ≤ (Project.poleTerm true 0 m).re ∧ (Project.poleTerm true 0 m).im = 0 := by
    intro m hm
    obtain ⟨h1, h2⟩ := hy m hm
    unfold Project.poleTerm Project.legendre
    by_cases hs : m.nonsingular
    · simp [hs]; exact h1
    · simp [hs, h1, h2]
  have key : ∀ i j, NonNeg (FftObj.val (Project.result2d true (ed.map (· ^ 2)) mu (estimator w mc V comp rows) poles i j).2.2.1) ∧
      (FftObj.val (Project.result2d true (ed.map (· ^ 2)) mu (estimator w mc V comp rows) poles i j).2.2.2.1 = .fin 0 ∨
       FftObj.val (Project.result2d true (ed.map (· ^ 2)) mu (estimator w mc V comp rows) poles i j).2.2.2.1 = .nan) := by
    intro i j
    unfold Project.result2d
    simp only [head_poles]
    unfold Project.ratio
    have n0 := visible_nonneg mu (ed.map (· ^ 2)) (fun m => (m.w : ℚ)) _ hw i j
    have r0 := visible_nonneg mu (ed.map (· ^ 2)) (fun m => (Project.poleTerm true 0 m).re) _ (fun m hm => (hre m hm).1) i j
    have i0 := visible_zero mu (ed.map (· ^ 2)) (fun m => (Project.poleTerm true 0 m).im) _ (fun m hm => (hre m hm).2) i j
    rw [i0]
    split
    · exact ⟨trivial, .inr rfl⟩
    · exact ⟨div_nonneg r0 n0, .inl (by rw [zero_div]; rfl)⟩
  unfold FftObj.statData FftObj.statCols at hc
  simp only [FftObj.Kind.dim, FftObj.Kind.stat, FftObj.Kind.hermitian, List.mem_append, List.mem_cons, List.not_mem_nil, or_false] at hc
  rcases hc with ((rfl | hc) | rfl | rfl) | rfl
  · exact ⟨fun h => absurd h (by show ¬ "k" = _; decide), fun h => absurd h (by show ¬ "k" = _; decide)⟩
  · cases b with
    | true => simp at hc
    | false =>
      simp at hc
      subst hc
      exact ⟨fun h => absurd h (by show ¬ "mu" = _; decide), fun h => absurd h (by show ¬ "mu" = _; decide)⟩
  · refine ⟨fun _ v hv => ?_, fun h => absurd h (by show ¬ ("power" ++ ".real") = _; decide)⟩
    simp only [List.mem_map] at hv
    obtain ⟨_, ⟨_, ⟨p, -, rfl⟩, rfl⟩, rfl⟩ := hv
    exact (key p.1 p.2).1
  · refine ⟨fun h => absurd h (by show ¬ ("power" ++ ".imag") = _; decide), fun _ v hv => ?_⟩
    simp only [List.mem_map] at hv
    obtain ⟨_, ⟨_, ⟨p, -, rfl⟩, rfl⟩, rfl⟩ := hv
    exact (key p.1 p.2).2
  · exact ⟨fun h => absurd h (by show ¬ "modes" = _; decide), fun h => absurd h (by show ¬ "modes" = _; decide)⟩

/-- C136: the power of a single particle is its shot noise, in every mode but 0. -/
theorem single_particle (w : World) (hn : 0 < w.ncells) (mc : Machine) (V : ℚ) (rows : List (List Paint.Row)) (r : Paint.Row) (hs : Paint.selected rows = [r])
    (hw : 0 < r.weight) (hv : r.value = 1) (m : Nat) (hm : m ≠ w.zero) (h1 : norm2 (window w m r.pos) = 1) (f : Fld)
    (h : compute w mc V (.particles (fun _ => 1) none none rows) = .ok f) :
    power w V f.coef f.coef m = ⟨V, 0⟩ ∧ f.shot = some V ∧ f.N = some 1 := by
  have hW : totalW rows = r.weight := by simp [totalW, hs]
  have hW2 : totalW2 rows = r.weight * r.weight := by simp [totalW2, hs]
  obtain ⟨a, b, c⟩ := compute_direct w hn mc V _ none none rows f h
  have hd : direct w m (Paint.selected rows) = scale r.weight (window w m r.pos) := by
    simp [direct, hs, sum, scale, hv]
  refine ⟨?_, ?_, by rw [b, hs]; rfl⟩
  · unfold power
    rw [if_neg hm, a, hW, if_pos hw, hd, scale_scale, div_mul_cancel₀ _ hw.ne']
    unfold norm2 at h1
    unfold scale mul conj
    apply ext
    · simp only; linear_combination V * h1
    · simp only; ring
  · rw [c, hW, hW2]
    simp only [Option.getD_none]
    congr 1
    field_simp

/-! ## Weights -/

def scaleW (q : ℚ) (r : Paint.Row) : Paint.Row := { r with weight := q * r.weight }

theorem selected_map (g : Paint.Row → Paint.Row) (hg : ∀ r, (g r).sel = r.sel) (rows : List (List Paint.Row)) :
    Paint.selected (rows.map fun l => l.map g) = (Paint.selected rows).map g := by
  unfold Paint.selected
  have : (rows.map fun l => l.map g).flatten = rows.flatten.map g := by rw [List.map_flatten]
  rw [this, List.filter_map]
  congr 2
  funext r
  simp [hg]

def weighted (q : ℚ) : Content → Content
  | .particles c n s rows => .particles c n s (rows.map fun l => l.map (scaleW q))
  | c => c

/-- C136: the unit of the weights does not matter, for each source: the whole result is the same. -/
theorem weights_scaled (w : World) (hn : 0 < w.ncells) (mc : Machine) (hf : Fits mc) (q : Nat → ℚ) (hq : ∀ s, 0 < q s) (k : FftObj.Kind)
    (first : FftObj.Src) (sec : Option FftObj.Src) (g : FftObj.Args) (hb : ∀ c, checked w k first sec g = .ok c → BinsOk w mc k c.1) :
    call w { mc with content := fun s => weighted (q s) (mc.content s) } k first sec g = call w mc k first sec g := by
  symm
  refine call_related w mc { mc with content := fun s => weighted (q s) (mc.content s) } Eq ?_ (powers_eq w) ⟨.refl _, .refl _⟩ k first sec g hb
  intro V s
  left
  obtain ⟨f, h1⟩ := compute_ok w mc V (mc.content s) hf.1 (hf.2 s)
  obtain ⟨f', h2⟩ := compute_ok w { mc with content := fun s => weighted (q s) (mc.content s) } V (weighted (q s) (mc.content s)) hf.1 (by
    intro comp an as rows hr
    cases hc : mc.content s with
    | cells n a g => rw [hc] at hr; cases hr
    | particles c n a r =>
      rw [hc] at hr
      simp only [weighted, Content.particles.injEq] at hr
      obtain ⟨-, -, -, rfl⟩ := hr
      simpa using hf.2 s _ _ _ _ hc)
  refine ⟨f, f', h1, h2, ?_⟩
  have hqs := hq s
  generalize q s = q at *
  cases hc : mc.content s with
  | cells n a g =>
    rw [hc] at h1 h2
    cases h1; cases h2; rfl
  | particles c n a r =>
    rw [hc] at h1 h2
    obtain ⟨a1, a2, a3⟩ := compute_direct w hn mc V c n a r f h1
    obtain ⟨b1, b2, b3⟩ := compute_direct w hn _ V c n a _ f' h2
    have hs := selected_map (scaleW q) (fun _ => rfl) r
    have hW : totalW (r.map fun l => l.map (scaleW q)) = q * totalW r := by
      unfold totalW
      rw [hs, List.map_map, ← List.sum_map_mul_left]
      rfl
    have hW2 : totalW2 (r.map fun l => l.map (scaleW q)) = q ^ 2 * totalW2 r := by
      unfold totalW2
      rw [hs, List.map_map, ← List.sum_map_mul_left]
      congr 1
      apply List.map_congr_left
      intro x _
      simp only [scaleW, Function.comp]
      ring
    have hd : ∀ m, direct w m (Paint.selected (r.map fun l => l.map (scaleW q))) = scale q (direct w m (Paint.selected r)) := by
      intro m
      unfold direct
      rw [hs, ← sum_scale, List.map_map, List.map_map]
      congr 1
      apply List.map_congr_left
      intro x _
      simp only [scaleW, Function.comp, scale_scale, mul_assoc]
    obtain ⟨fc, fn, fs⟩ := f
    obtain ⟨fc', fn', fs'⟩ := f'
    simp only at a1 a2 a3 b1 b2 b3
    rw [Fld.mk.injEq]
    refine ⟨?_, ?_, ?_⟩
    · funext m
      rw [a1, b1, hW, hd]
      by_cases hp : 0 < totalW r
      · rw [if_pos hp, if_pos (mul_pos hqs hp), scale_scale]
        congr 1
        field_simp
      · rw [if_neg hp, if_neg (fun hc => hp ((mul_pos_iff_of_pos_left hqs).mp hc))]
    · rw [a2, b2, hs, List.length_map]
    · rw [a3, b3, hW, hW2]
      congr 2
      by_cases h0 : totalW r = 0
      · simp [h0]
      · field_simp

/-- C136: a catalog in which every particle is there twice has the same coefficients, twice the number and half the shot noise. -/
theorem doubled (w : World) (hn : 0 < w.ncells) (mc mc' : Machine) (V : ℚ) (comp : Nat → ℚ) (rows rows' : List (List Paint.Row))
    (hr : rows'.flatten.Perm (rows.flatten ++ rows.flatten)) (f f' : Fld) (h : compute w mc V (.particles comp none none rows) = .ok f)
    (h' : compute w mc' V (.particles comp none none rows') = .ok f') :
    (∀ m, f'.coef m = f.coef m) ∧ (∃ n, f.N = some n ∧ f'.N = some (2 * n)) ∧ ∃ s, f.shot = some s ∧ f'.shot = some (s / 2) := by
  obtain ⟨a1, a2, a3⟩ := compute_direct w hn mc V comp none none rows f h
  obtain ⟨b1, b2, b3⟩ := compute_direct w hn mc' V comp none none rows' f' h'
  have hs : (Paint.selected rows').Perm (Paint.selected rows ++ Paint.selected rows) := by
    have := hr.filter Paint.Row.sel
    rw [List.filter_append] at this
    exact this
  have hW : totalW rows' = 2 * totalW rows := by
    unfold totalW
    rw [(hs.map _).sum_eq, List.map_append, List.sum_append]
    ring
  have hW2 : totalW2 rows' = 2 * totalW2 rows := by
    unfold totalW2
    rw [(hs.map _).sum_eq, List.map_append, List.sum_append]
    ring
  have hd : ∀ m, direct w m (Paint.selected rows') = scale 2 (direct w m (Paint.selected rows)) := by
    intro m
    rw [direct_perm w m hs]
    unfold direct sum scale
    apply ext <;> simp only [List.map_append, List.sum_append] <;> ring
  refine ⟨fun m => ?_, ⟨_, a2, ?_⟩, ⟨_, a3, ?_⟩⟩
  · rw [a1, b1, hW, hd]
    by_cases hp : 0 < totalW rows
    · rw [if_pos hp, if_pos (by linarith), scale_scale]
      congr 1
      field_simp
    · rw [if_neg hp, if_neg (fun hc => hp (by linarith))]
  · rw [b2, hs.length_eq, List.length_append]
    congr 1
    simp only [Option.getD_none]
    omega
  · rw [b3, hW, hW2]
    congr 1
    simp only [Option.getD_none]
    by_cases h0 : totalW rows = 0
    · simp [h0]
    · field_simp

/-! ## Shifts -/

/-- A shift of the box: it permutes the cells, the window moves with the particles, and the exponentials get a phase. -/
structure Shift (w : World) where
  pos : Nat → Nat
  cell : Nat → Nat
  phase : Nat → Cx
  perm : ((List.range w.ncells).map cell).Perm (List.range w.ncells)
  dep : ∀ p x, w.dep (pos p) (cell x) = w.dep p x
  tw : ∀ m x, w.tw m (cell x) = mul (phase m) (w.tw m x)
  unit : ∀ m, norm2 (phase m) = 1

def Shift.row {w : World} (σ : Shift w) (r : Paint.Row) : Paint.Row := { r with pos := σ.pos r.pos }

/-- The shifted content: particles at the new positions, or a field with the values moved. -/
def Shifted {w : World} (σ : Shift w) : Content → Content → Prop
  | .particles c n s rows, c' => c' = .particles c n s (rows.map fun l => l.map σ.row)
  | .cells n s f, .cells n' s' f' => n' = n ∧ s' = s ∧ ∀ x, f' (σ.cell x) = f x
  | _, _ => False

theorem shift_r2c {w : World} (σ : Shift w) (f f' : Nat → ℚ) (h : ∀ x, f' (σ.cell x) = f x) (m : Nat) : r2c w f' m = mul (σ.phase m) (r2c w f m) := by
  have e : r2c w f' m = sum (((List.range w.ncells).map σ.cell).map fun x => scale (f' x / w.ncells) (w.tw m x)) :=
    sum_perm (σ.perm.symm.map _)
  rw [e]
  unfold r2c
  rw [← mul_sum, List.map_map, List.map_map]
  congr 1
  apply List.map_congr_left
  intro x _
  simp only [Function.comp, h, σ.tw, mul_scale]

theorem shift_window {w : World} (σ : Shift w) (m p : Nat) : window w m (σ.pos p) = mul (σ.phase m) (window w m p) := by
  have e : window w m (σ.pos p) = sum (((List.range w.ncells).map σ.cell).map fun x => scale (w.dep (σ.pos p) x) (w.tw m x)) :=
    sum_perm (σ.perm.symm.map _)
  rw [e]
  unfold window
  rw [← mul_sum, List.map_map, List.map_map]
  congr 1
  apply List.map_congr_left
  intro x _
  simp only [Function.comp, σ.dep, σ.tw, mul_scale]

/-- C136: the result does not change if all sources are shifted by the same whole number of cells. -/
theorem call_shifted (w : World) (hn : 0 < w.ncells) (σ : Shift w) (mc mc' : Machine) (hl : SameLayout mc mc') (hf : Fits mc) (hf' : Fits mc')
    (hc : ∀ s, Shifted σ (mc.content s) (mc'.content s)) (k : FftObj.Kind) (first : FftObj.Src) (sec : Option FftObj.Src) (g : FftObj.Args)
    (hb : ∀ c, checked w k first sec g = .ok c → BinsOk w mc k c.1) :
    call w mc k first sec g = call w mc' k first sec g := by
  refine call_related w mc mc' (fun f f' => f.N = f'.N ∧ f.shot = f'.shot ∧ ∀ m, f'.coef m = mul (σ.phase m) (f.coef m)) ?_ ?_ hl k first sec g hb
  · intro V s
    left
    obtain ⟨f, h1⟩ := compute_ok w mc V (mc.content s) hf.1 (hf.2 s)
    obtain ⟨f', h2⟩ := compute_ok w mc' V (mc'.content s) hf'.1 (hf'.2 s)
    refine ⟨f, f', h1, h2, ?_⟩
    have hs := hc s
    generalize mc.content s = c at *
    generalize mc'.content s = c' at *
    cases c with
    | cells n a q =>
      cases c' with
      | particles c n s r => exact hs.elim
      | cells n' a' q' =>
        obtain ⟨rfl, rfl, hq⟩ := hs
        cases h1; cases h2
        exact ⟨rfl, rfl, fun m => shift_r2c σ q q' hq m⟩
    | particles c n a r =>
      have hs : c' = .particles c n a (r.map fun l => l.map σ.row) := hs
      subst hs
      obtain ⟨a1, a2, a3⟩ := compute_direct w hn mc V c n a r f h1
      obtain ⟨b1, b2, b3⟩ := compute_direct w hn mc' V c n a _ f' h2
      have hsel := selected_map σ.row (fun _ => rfl) r
      have hW : totalW (r.map fun l => l.map σ.row) = totalW r := by unfold totalW; rw [hsel, List.map_map]; rfl
      have hW2 : totalW2 (r.map fun l => l.map σ.row) = totalW2 r := by unfold totalW2; rw [hsel, List.map_map]; rfl
      refine ⟨by rw [a2, b2, hsel, List.length_map], by rw [a3, b3, hW, hW2], fun m => ?_⟩
      rw [a1, b1, hW]
      by_cases hp : 0 < totalW r
      · rw [if_pos hp, if_pos hp]
        rw [← mul_scale]
        congr 1
        unfold direct
        rw [hsel, ← mul_sum, List.map_map, List.map_map]
        congr 1
        apply List.map_congr_left
        intro x _
        simp only [Function.comp, Shift.row, shift_window, mul_scale]
      · rw [if_neg hp, if_neg hp, ← mul_scale]
        congr 1
        exact shift_r2c σ (fun _ => 1) (fun _ => 1) (fun _ => rfl) m
  · rintro f1 f1' f2 f2' ⟨n1, s1, c1⟩ ⟨-, -, c2⟩
    refine ⟨n1, s1, fun V m => ?_⟩
    unfold power
    split
    · rfl
    · rw [c1, c2]
      have := σ.unit m
      unfold norm2 at this
      unfold scale mul conj
      apply ext <;> simp only
      · linear_combination -V * ((f1.coef m).re * (f2.coef m).re + (f1.coef m).im * (f2.coef m).im) * this
      · linear_combination -V * ((f1.coef m).im * (f2.coef m).re - (f1.coef m).re * (f2.coef m).im) * this

/-- C136: exchanging the sources conjugates the power of every mode. -/
theorem power_swap (w : World) (V : ℚ) (c1 c2 : Nat → Cx) (m : Nat) : power w V c2 c1 m = conj (power w V c1 c2 m) := by
  unfold power
  split
  · simp [conj]
  · unfold scale mul conj
    apply ext <;> simp only <;> ring

end NBK.Pipe
