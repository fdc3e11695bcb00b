import Verif.Recon.Lemmas
import Mathlib.Data.Fin.VecNotation
import Mathlib.Tactic.FinCases
import Mathlib.Algebra.BigOperators.Field

/-! # C75, C76: reconstruction -/
set_option linter.unusedSimpArgs false

namespace NBK.Recon

/-- Specification: the density of a set of objects in units of the mean. -/
def density {n : Nat} (share : V3 → Fin n → ℚ) (objs : List V3) (c : Fin n) : ℚ :=
  (objs.map fun p => share p c).sum / (objs.length / n)

/-- Specification: the reconstructed density contrast when data at `p` are moved to `p - md p` and randoms to `p - mr p`. -/
def recon {n : Nat} (share : V3 → Fin n → ℚ) (scheme : Scheme) (data ran : List V3) (md mr : V3 → V3) (c : Fin n) : ℚ :=
  let g := density share (data.map fun p => p - md p) c - density share (ran.map fun p => p - mr p) c
  let r := density share data c - (density share (ran.map fun p => p + mr p) c + density share (ran.map fun p => p - mr p) c) / 2
  match scheme with
  | .LGS => g
  | .LRR => r
  | .LF2 => 3 / 7 * g + 4 / 7 * r

/-- Specification: the displacement at a position that the code computes for data with density `delta`. -/
def psi {n m : Nat} (share : V3 → Fin n → ℚ) (t : Fft n m) (a : Attrs) (smooth : ℚ → ℚ) (delta : Fin m → Cx) (p : V3) : V3 :=
  fun d => readout share (t.c2r fun q => kernel a smooth d (t.k q) (delta q)) p

theorem zip_map (cat : List (List V3)) (g : V3 → V3) :
    (shifted cat (some (cat.map fun r => r.map g))).flatten = cat.flatten.map fun p => p - g p := by
  induction cat with
  | nil => rfl
  | cons r cat ih =>
    simp only [shifted, List.map_cons, List.zipWith_cons_cons, List.flatten_cons, List.map_append] at *
    rw [ih]
    congr 1
    induction r with
    | nil => rfl
    | cons p r ih2 => simp [ih2]

theorem work_density {n : Nat} (hn : n ≠ 0) (share : V3 → Fin n → ℚ) (size : Nat) (hs : size ≠ 0) (cat : List (List V3))
    (hc : cat.flatten ≠ []) (g : V3 → V3) :
    workWith share size cat (some (cat.map fun r => r.map g)) = .ok (some (density share (cat.flatten.map fun p => p - g p))) ∧
    workWith share size cat none = .ok (some (density share cat.flatten)) := by
  have hn' : (n : ℚ) ≠ 0 := by exact_mod_cast hn
  have hl : (cat.flatten.length : ℚ) ≠ 0 := by
    have : cat.flatten.length ≠ 0 := fun h => hc (List.eq_nil_of_length_eq_zero h)
    exact_mod_cast this
  have h0 : ¬ ((cat.flatten.length : ℚ) / n = 0) := div_ne_zero hl hn'
  constructor
  · rw [workWith_eq share size hs, if_neg h0, zip_map]
    congr 2; funext c; simp only [density, List.length_map]
  · rw [workWith_eq share size hs, if_neg h0]
    rfl

/-- The field made of displacements that are a function of the position. -/
theorem helper_eq {n : Nat} (hn : n ≠ 0) (share : V3 → Fin n → ℚ) (size : Nat) (hs : size ≠ 0) (scheme : Scheme)
    (data ran : List (List V3)) (hd : data.flatten ≠ []) (hr : ran.flatten ≠ []) (md mr : V3 → V3) :
    helperPaint share size scheme data ran (data.map fun r => r.map md) (ran.map fun r => r.map mr) =
      .ok (some (recon share scheme data.flatten ran.flatten md mr)) := by
  have d1 := (work_density hn share size hs data hd md).1
  have d2 := (work_density hn share size hs data hd md).2
  have r1 := (work_density hn share size hs ran hr mr).1
  have r2 := (work_density hn share size hs ran hr (fun p => -mr p)).1
  have e : ((ran.map fun r => r.map mr).map fun r => r.map fun v => -v) = ran.map fun r => r.map fun p => -mr p := by
    simp [List.map_map, Function.comp_def]
  have e2 : (ran.flatten.map fun p => p - -mr p) = ran.flatten.map fun p => p + mr p := by simp
  rw [e2] at r2
  unfold helperPaint
  cases scheme with
  | LGS =>
    simp only [bind, Except.bind, pure, Except.pure, lgs, r1, d1, fsub, Option.bind_some, Option.map_some]
    congr 2
  | LRR =>
    simp only [bind, Except.bind, pure, Except.pure, lrr, r1, d2, e, r2, fsub, fadd, fscale, Option.bind_some, Option.map_some]
    congr 2
    funext c
    simp only [recon, Pi.sub_apply, Pi.add_apply]; ring
  | LF2 =>
    simp only [bind, Except.bind, pure, Except.pure, lgs, lrr, r1, d1, d2, e, r2, fsub, fadd, fscale, Option.bind_some,
      Option.map_some]
    congr 2
    funext c
    simp only [recon, Pi.sub_apply, Pi.add_apply]; ring

/-- **C75.** For a direction that is not zero and catalogs that are not empty the reconstructed field is, in every scheme, the
documented combination of the densities of the data, moved back by their displacement, and of the randoms, moved back and
forth: `LGS = D(data - s) - D(ran - s)`, `LRR = D(data) - (D(ran + s) + D(ran - s)) / 2`, `LF2 = 3/7 LGS + 4/7 LRR`. All ranks,
all chunks and all objects enter, each once. -/
theorem run_eq {n m : Nat} (hn : n ≠ 0) (share : V3 → Fin n → ℚ) (t : Fft n m) (a : Attrs) (smooth : ℚ → ℚ) (size : Nat)
    (hs : size ≠ 0) (scheme : Scheme) (data ran : List (List V3)) (hd : data.flatten ≠ []) (hr : ran.flatten ≠ [])
    (los : V3) (hl : prepareLos a.los = .ok los) :
    run share t a smooth size scheme data ran = .ok (some (recon share scheme data.flatten ran.flatten
      (fun p d => psi share t { a with los := los } smooth (t.r2c (density share data.flatten)) p d * (1 + los d * a.f))
      (fun p d => psi share t { a with los := los } smooth (t.r2c (density share data.flatten)) p d *
        (if a.revert then 1 + los d * a.f else 1)))) := by
  have d2 := (work_density hn share size hs data hd (fun p => p)).2
  unfold run
  simp only [bind, Except.bind, hl, computeS, d2, pure, Except.pure]
  have e1 : addRsd { a with los := los } (solve share t { a with los := los } smooth (t.r2c (density share data.flatten)) data) =
      data.map fun r => r.map fun p d =>
        psi share t { a with los := los } smooth (t.r2c (density share data.flatten)) p d * (1 + los d * a.f) := by
    simp [addRsd, solve, List.map_map, Function.comp_def, psi]
  have e2 : (if a.revert = true then
      addRsd { a with los := los } (solve share t { a with los := los } smooth (t.r2c (density share data.flatten)) ran)
      else solve share t { a with los := los } smooth (t.r2c (density share data.flatten)) ran) =
      ran.map fun r => r.map fun p d =>
        psi share t { a with los := los } smooth (t.r2c (density share data.flatten)) p d *
          (if a.revert then 1 + los d * a.f else 1) := by
    cases a.revert
    · simp only [Bool.false_eq_true, if_false, mul_one]; rfl
    · simp [addRsd, solve, List.map_map, Function.comp_def, psi]
  rw [e1, e2, helper_eq hn share size hs scheme data ran hd hr]

/-- **C75** (layout). The field does not depend on the chunk size, the number of ranks, the distribution of the objects and
their order. -/
theorem run_indep {n m : Nat} (hn : n ≠ 0) (share : V3 → Fin n → ℚ) (t : Fft n m) (a : Attrs) (smooth : ℚ → ℚ) (size size' : Nat)
    (hs : size ≠ 0) (hs' : size' ≠ 0) (scheme : Scheme) (data ran data' ran' : List (List V3)) (hd : data.flatten ≠ [])
    (hr : ran.flatten ≠ []) (pd : data.flatten.Perm data'.flatten) (pr : ran.flatten.Perm ran'.flatten) :
    run share t a smooth size scheme data ran = run share t a smooth size' scheme data' ran' := by
  have hd' : data'.flatten ≠ [] := fun h => hd (by rw [h] at pd; exact pd.eq_nil)
  have hr' : ran'.flatten ≠ [] := fun h => hr (by rw [h] at pr; exact pr.eq_nil)
  have dp : ∀ l l' : List V3, l.Perm l' → density share l = density share l' := by
    intro l l' h
    funext c
    unfold density
    rw [(h.map fun p => share p c).sum_eq, h.length_eq]
  by_cases h0 : norm2 a.los = 0
  · unfold run
    simp [prepareLos, h0, bind, Except.bind]
  · have hl : prepareLos a.los = .ok fun i => a.los i / norm2 a.los := by simp [prepareLos, h0]
    rw [run_eq hn share t a smooth size hs scheme data ran hd hr _ hl,
      run_eq hn share t a smooth size' hs' scheme data' ran' hd' hr' _ hl, dp _ _ pd]
    congr 2
    funext c
    unfold recon
    dsimp only
    rw [dp _ _ pd, dp _ _ (pd.map _), dp _ _ (pr.map _), dp _ _ (pr.map _)]

/-- **C75** (mean). The cells of the reconstructed field add up to zero in every scheme. -/
theorem run_mean_zero {n m : Nat} (hn : n ≠ 0) (share : V3 → Fin n → ℚ) (h1 : ∀ p, ∑ c, share p c = 1) (t : Fft n m) (a : Attrs)
    (smooth : ℚ → ℚ) (size : Nat) (scheme : Scheme) (data ran : List (List V3)) (F : Fin n → ℚ)
    (hrun : run share t a smooth size scheme data ran = .ok (some F)) : ∑ c, F c = 0 := by
  have hn' : (n : ℚ) ≠ 0 := by exact_mod_cast hn
  by_cases h0 : norm2 a.los = 0
  · unfold run at hrun
    simp [prepareLos, h0, bind, Except.bind] at hrun
  have hl : prepareLos a.los = .ok fun i => a.los i / norm2 a.los := by simp [prepareLos, h0]
  have hs : size ≠ 0 := by
    rintro rfl
    unfold run at hrun
    simp [hl, bind, Except.bind, computeS, workWith] at hrun
  have hd : data.flatten ≠ [] := by
    intro hd
    unfold run at hrun
    simp [hl, bind, Except.bind, pure, Except.pure, computeS, workWith_eq share size hs, hd] at hrun
  have hr : ran.flatten ≠ [] := by
    intro hr
    unfold run at hrun
    simp only [hl, bind, Except.bind, pure, Except.pure, computeS, (work_density hn share size hs data hd (fun p => p)).2,
      helperPaint] at hrun
    rw [workWith_eq share size hs, if_pos (by simp [hr])] at hrun
    cases scheme
    · simp [lgs, bind, Except.bind, pure, Except.pure, workWith_eq share size hs, fsub] at hrun
    · simp [lgs, lrr, bind, Except.bind, pure, Except.pure, workWith_eq share size hs, fsub, fadd, fscale] at hrun
    · simp [lrr, bind, Except.bind, pure, Except.pure, workWith_eq share size hs, fsub, fadd, fscale] at hrun
  rw [run_eq hn share t a smooth size hs scheme data ran hd hr _ hl] at hrun
  have hF := Option.some.inj (Except.ok.inj hrun)
  have dsum : ∀ l : List V3, l ≠ [] → ∑ c, density share l c = n := by
    intro l hne
    have hlen : (l.length : ℚ) ≠ 0 := by
      have : l.length ≠ 0 := by simpa using hne
      exact_mod_cast this
    unfold density
    rw [← Finset.sum_div, sum_shares share h1]
    field_simp
  rw [← hF]
  unfold recon
  cases scheme <;>
    simp only [Finset.sum_sub_distrib, Finset.sum_add_distrib, ← Finset.mul_sum, ← Finset.sum_div] <;>
    simp only [dsum _ hd, dsum _ (show data.flatten.map _ ≠ [] by simpa using hd),
      dsum _ (show ran.flatten.map _ ≠ [] by simpa using hr)] <;> ring

/-- **C75** (negation). If the data or the randoms are empty the field is NaN everywhere, without an error. -/
theorem run_empty {n m : Nat} (share : V3 → Fin n → ℚ) (t : Fft n m) (a : Attrs) (smooth : ℚ → ℚ) (size : Nat)
    (hs : size ≠ 0) (scheme : Scheme) (data ran : List (List V3)) (hl : norm2 a.los ≠ 0)
    (he : data.flatten = [] ∨ ran.flatten = []) : run share t a smooth size scheme data ran = .ok none := by
  have hl : prepareLos a.los = .ok fun i => a.los i / norm2 a.los := by simp [prepareLos, hl]
  unfold run
  by_cases hd : data.flatten = []
  · simp [hl, bind, Except.bind, pure, Except.pure, computeS, workWith_eq share size hs, hd]
  · have hr := he.resolve_left hd
    by_cases hn : n = 0
    · subst hn
      simp [hl, bind, Except.bind, pure, Except.pure, computeS, workWith_eq share size hs]
    simp only [hl, bind, Except.bind, pure, Except.pure, computeS, (work_density hn share size hs data hd (fun p => p)).2,
      helperPaint]
    rw [workWith_eq share size hs, if_pos (by simp [hr])]
    cases scheme
    · simp [lgs, bind, Except.bind, pure, Except.pure, workWith_eq share size hs, fsub]
    · simp [lgs, lrr, bind, Except.bind, pure, Except.pure, workWith_eq share size hs, fsub, fadd, fscale]
    · simp [lrr, bind, Except.bind, pure, Except.pure, workWith_eq share size hs, fsub, fadd, fscale]

/-- Specification: the mode of the displacement in the Zel'dovich approximation, `i k_d / k^2` times the smoothed density. -/
def zeldovich (smooth : ℚ → ℚ) (d : Fin 3) (k : V3) (v : Cx) : Cx :=
  if norm2 k = 0 then (0, 0) else (-(k d / norm2 k * (smooth (norm2 k) * v.2)), k d / norm2 k * (smooth (norm2 k) * v.1))

theorem norm2_zero (k : V3) (h : norm2 k = 0) (d : Fin 3) : k d = 0 := by
  unfold norm2 at h
  have h0 := sq_nonneg (k 0)
  have h1 := sq_nonneg (k 1)
  have h2 := sq_nonneg (k 2)
  have e0 : k 0 ^ 2 = 0 := by linarith
  have e1 : k 1 ^ 2 = 0 := by linarith
  have e2 : k 2 ^ 2 = 0 := by linarith
  fin_cases d
  · exact pow_eq_zero_iff (by norm_num) |>.mp e0
  · exact pow_eq_zero_iff (by norm_num) |>.mp e1
  · exact pow_eq_zero_iff (by norm_num) |>.mp e2

/-- **C76** (kernel). Applied to a mode of biased tracers in redshift space, `(b + f mu^2)` times the matter, with `mu` the
cosine between the wave vector and a line of sight of length one, the kernel gives the Zel'dovich displacement of the smoothed
matter; the mean mode gives nothing. -/
theorem kernel_linear (a : Attrs) (smooth : ℚ → ℚ) (d : Fin 3) (k : V3) (dm : Cx) (hb : a.bias ≠ 0)
    (hden : norm2 k ≠ 0 → a.bias + a.f * ((dot k a.los) ^ 2 / norm2 k) ≠ 0) :
    kernel a smooth d k (Cx.smul (a.bias + a.f * ((dot k a.los) ^ 2 / norm2 k)) dm) = zeldovich smooth d k dm := by
  unfold kernel zeldovich
  by_cases h : norm2 k = 0
  · simp [h, norm2_zero k h d, Cx.smul, Cx.mulI]
  · have hden := hden h
    simp only [h, if_false]
    have e : a.bias * (1 + a.f / a.bias * ((dot k a.los) ^ 2 / norm2 k)) = a.bias + a.f * ((dot k a.los) ^ 2 / norm2 k) := by
      field_simp
    rw [e]
    generalize a.bias + a.f * ((dot k a.los) ^ 2 / norm2 k) = q at *
    simp only [Cx.smul, Cx.mulI]
    ext
    · simp only; field_simp
    · simp only; field_simp

/-- Specification: the displacement with redshift-space distortions along the direction `l` of length one. -/
def withRsd (f : ℚ) (l v : V3) : V3 := fun d => v d + f * dot v l * l d

/-- **C76** (partial: the line of sight is a positive axis; see `rsd_iff`, `los_flipped`, `los_scaled`). For tracers whose modes
are `(b + f mu^2)` times the matter, data are moved back by the Zel'dovich displacement of the smoothed matter together with its
redshift-space distortion, and randoms by the displacement without, or with on request. -/
theorem displacement_partial {n m : Nat} (share : V3 → Fin n → ℚ) (t : Fft n m) (a : Attrs) (smooth : ℚ → ℚ)
    (hn : n ≠ 0) (size : Nat) (hs : size ≠ 0) (scheme : Scheme)
    (data ran : List (List V3)) (hd : data.flatten ≠ []) (hr : ran.flatten ≠ [])
    (hb : a.bias ≠ 0) (ax : Fin 3) (hlos : a.los = fun i => if i = ax then 1 else 0)
    (hden : ∀ q, norm2 (t.k q) ≠ 0 → a.bias + a.f * ((t.k q ax) ^ 2 / norm2 (t.k q)) ≠ 0) (dm : Fin m → Cx)
    (hdm : ∀ q, t.r2c (density share data.flatten) q = Cx.smul (a.bias + a.f * ((t.k q ax) ^ 2 / norm2 (t.k q))) (dm q)) :
    let zel : V3 → V3 := fun p d => readout share (t.c2r fun q => zeldovich smooth d (t.k q) (dm q)) p
    run share t a smooth size scheme data ran = .ok (some (recon share scheme data.flatten ran.flatten
      (fun p => withRsd a.f a.los (zel p)) (fun p => if a.revert then withRsd a.f a.los (zel p) else zel p))) := by
  intro zel
  have hdot : ∀ k : V3, dot k a.los = k ax := by
    intro k
    rw [hlos]; unfold dot
    fin_cases ax <;> simp
  have hnorm : norm2 a.los = 1 := by
    rw [hlos]; unfold norm2
    fin_cases ax <;> simp
  have hl : prepareLos a.los = .ok a.los := by
    simp [prepareLos, hnorm]
  rw [run_eq hn share t a smooth size hs scheme data ran hd hr _ hl]
  have hpsi : ∀ p, psi share t { a with los := a.los } smooth (t.r2c (density share data.flatten)) p = zel p := by
    intro p
    funext d
    simp only [psi, zel]
    congr 2
    funext q
    rw [hdm q]
    have := kernel_linear a smooth d (t.k q) (dm q) hb (by rw [hdot]; exact hden q)
    rw [hdot] at this
    exact this
  have hrsd : ∀ v : V3, (fun d => v d * (1 + a.los d * a.f)) = withRsd a.f a.los v := by
    intro v
    funext d
    unfold withRsd
    rw [hdot, hlos]
    by_cases h : d = ax
    · subst h; simp; ring
    · simp [h]
  simp only [hpsi]
  congr 3
  · funext p
    exact hrsd (zel p)
  · funext p
    by_cases h : a.revert = true
    · simp only [h, if_true]; exact hrsd (zel p)
    · simp [h]

/-- **C76** (which directions work). For a line of sight of length one and a growth rate that is not zero, the factor
`1 + f los` is the redshift-space distortion of every displacement exactly when the line of sight is one of the three positive
axes. -/
theorem rsd_iff (f : ℚ) (hf : f ≠ 0) (l : V3) (hl : norm2 l = 1) :
    (∀ v : V3, (fun d => v d * (1 + l d * f)) = withRsd f l v) ↔ ∃ ax : Fin 3, l = fun i => if i = ax then 1 else 0 := by
  constructor
  · intro h
    have key : ∀ i j : Fin 3, i ≠ j → l i * l j = 0 := by
      intro i j hij
      have := congrFun (h fun d => if d = j then 1 else 0) i
      unfold withRsd dot at this
      simp only [hij, if_false] at this
      have e : f * (l j * l i) = 0 := by
        fin_cases j <;> simp at this ⊢ <;> tauto
      rcases mul_eq_zero.mp e with h | h
      · exact absurd h hf
      · rw [mul_comm]; exact h
    have key2 : ∀ i : Fin 3, l i = l i ^ 2 := by
      intro i
      have := congrFun (h fun d => if d = i then 1 else 0) i
      unfold withRsd dot at this
      simp only [if_true] at this
      have e0 : l i * f = f * l i * l i := by fin_cases i <;> simpa using this
      have e : f * (l i - l i ^ 2) = 0 := by linear_combination e0
      rcases mul_eq_zero.mp e with h | h
      · exact absurd h hf
      · linarith
    have h01 : ∀ i : Fin 3, l i = 0 ∨ l i = 1 := by
      intro i
      have h2 : l i * (l i - 1) = 0 := by have := key2 i; ring_nf; linarith
      rcases mul_eq_zero.mp h2 with h | h
      · exact Or.inl h
      · exact Or.inr (by linarith)
    have hex : ∃ ax, l ax = 1 := by
      by_contra hc
      push Not at hc
      have hz : ∀ i, l i = 0 := fun i => (h01 i).resolve_right (hc i)
      simp [norm2, hz] at hl
    obtain ⟨ax, hax⟩ := hex
    refine ⟨ax, ?_⟩
    funext i
    by_cases hi : i = ax
    · simp [hi, hax]
    · have := key i ax hi
      rw [hax, mul_one] at this
      simp [hi, this]
  · rintro ⟨ax, rfl⟩ v
    funext d
    unfold withRsd dot
    by_cases h : d = ax
    · subst h; fin_cases d <;> simp <;> ring
    · simp [h]

/-- **C76** (negation). The sign of the line of sight matters: along `-z` the data are moved by `1 - f` instead of `1 + f` times
the displacement. -/
theorem los_flipped (f s : ℚ) : prepareLos ![0, 0, -1] = .ok ![0, 0, -1] ∧
    addRsd ⟨1, f, ![0, 0, -1], false⟩ [[![0, 0, s]]] = [[![0, 0, s * (1 - f)]]] ∧
    withRsd f ![0, 0, -1] ![0, 0, s] = ![0, 0, s * (1 + f)] := by
  refine ⟨?_, ?_, ?_⟩
  · have h : norm2 ![0, 0, -1] = 1 := by simp [norm2, Matrix.cons_val_two]
    simp [prepareLos, h]
  · simp only [addRsd, List.map_cons, List.map_nil]
    congr 2
    funext i
    fin_cases i
    · simp
    · simp
    · simp; left; ring
  · funext i
    fin_cases i <;> simp [withRsd, dot] <;> ring

/-- **C76** (negation). The length of the line of sight matters, which is divided by its square: `[0, 0, 2]` is kept as
`[0, 0, 1/2]`, and `mu^2` comes out as a quarter of what it is. -/
theorem los_scaled : prepareLos ![0, 0, 2] = .ok ![0, 0, 1 / 2] ∧ norm2 ![0, 0, 1 / 2] = 1 / 4 := by
  have h : norm2 ![0, 0, 2] = 4 := by simp [norm2]; norm_num
  refine ⟨?_, by simp [norm2]; norm_num⟩
  simp only [prepareLos, h]
  rw [if_neg (by norm_num)]
  congr 1
  funext i
  fin_cases i <;> simp <;> norm_num

/-- The line of sight ends up with the inverse of its length. -/
theorem los_length (l l' : V3) (h : prepareLos l = .ok l') : norm2 l' * norm2 l = 1 := by
  unfold prepareLos at h
  split at h
  · cases h
  · rename_i h0
    have := Except.ok.inj h
    subst this
    simp only [norm2] at *
    field_simp

/-- A zero line of sight is refused. -/
theorem los_zero {n m : Nat} (share : V3 → Fin n → ℚ) (t : Fft n m) (a : Attrs) (smooth : ℚ → ℚ) (size : Nat) (scheme : Scheme)
    (data ran : List (List V3)) (h : ∀ i, a.los i = 0) : run share t a smooth size scheme data ran = .error .assertion := by
  unfold run prepareLos
  simp [norm2, h, bind, Except.bind]

/-- An example with two cells along `z`: the window takes an object to a cell by the parity of its integer part, and the
transform is the sum and the difference, with wavenumbers 0 and 1 along `z`. -/
def exShare : V3 → Fin 2 → ℚ := fun p c => if (p 2).floor % 2 = c.val then 1 else 0

def exFft : Fft 2 2 where
  r2c := fun f q => if q = 0 then (f 0 + f 1, 0) else (f 0 - f 1, 0)
  c2r := fun g c => if c = 0 then (g 0).1 + (g 1).2 else (g 0).1 - (g 1).2
  k := fun q => if q = 0 then ![0, 0, 0] else ![0, 0, 1]

def exAttrs : Attrs := ⟨2, 1, fun i => if i = 2 then 1 else 0, false⟩

def exData : List (List V3) := [[![0, 0, 0], ![0, 0, 0]], [], [![0, 0, 1]]]

def exRan : List (List V3) := [[![0, 0, 0]], [![0, 0, 1]]]

/-- The shares of an object add up to one. -/
example (p : V3) : ∑ c, exShare p c = 1 := by
  rw [Fin.sum_univ_two]
  unfold exShare
  have h1 := Int.emod_nonneg (p 2).floor (by norm_num : (2 : ℤ) ≠ 0)
  have h2 := Int.emod_lt_of_pos (p 2).floor (by norm_num : (0 : ℤ) < 2)
  rcases (by omega : (p 2).floor % 2 = 0 ∨ (p 2).floor % 2 = 1) with h | h <;> simp [h]

/-- The hypotheses on the modes hold. -/
example : ∀ q, norm2 (exFft.k q) ≠ 0 → exAttrs.bias + exAttrs.f * ((exFft.k q 2) ^ 2 / norm2 (exFft.k q)) ≠ 0 := by
  intro q
  fin_cases q <;> simp [exFft, exAttrs, norm2] <;> norm_num

/-- The two cells of a field. -/
def cells (x : Except Err (Field 2)) : Except Err (Option (ℚ × ℚ)) := x.map fun f => f.map fun g => (g 0, g 1)

example : cells (run exShare exFft exAttrs (fun _ => 1) 1 .LF2 exData exRan) = .ok (some (4 / 21, -4 / 21)) := by decide +kernel

example : cells (run exShare exFft exAttrs (fun _ => 1) 5 .LF2 exData exRan) =
    cells (run exShare exFft exAttrs (fun _ => 1) 1 .LF2 [exData.flatten] exRan.reverse) := by decide +kernel

end NBK.Recon
