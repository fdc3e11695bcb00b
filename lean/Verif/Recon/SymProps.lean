import Verif.Recon.Props
import Mathlib.Logic.Equiv.Fin.Basic
import Mathlib.Algebra.BigOperators.Group.Finset.Basic

/-! # C142: symmetries, units and copies in the reconstruction -/
set_option linter.unusedSimpArgs false

namespace NBK.Recon

/-- The product of complex numbers, and the conjugate number if asked for. -/
def Cx.mul (a b : Cx) : Cx := (a.1 * b.1 - a.2 * b.2, a.1 * b.2 + a.2 * b.1)
def Cx.conjIf (c : Bool) (z : Cx) : Cx := if c then (z.1, -z.2) else z

/-- A symmetry of the periodic box and of its mesh: positions `p` go to `flip * p[axes] + shift`, cells to `cell`, modes to `mode`. A mode gets a phase;
when its image is not stored, it is the opposite mode with the conjugate coefficient (`opp`). At the Nyquist frequency a reflected wavenumber can have the
wrong sign: such modes are not `good`. -/
structure Sym {n m : Nat} (share : V3 → Fin n → ℚ) (t : Fft n m) where
  axes : Equiv.Perm (Fin 3)
  flip : Fin 3 → ℚ
  shift : V3
  cell : Equiv.Perm (Fin n)
  mode : Equiv.Perm (Fin m)
  phase : Fin m → Cx
  opp : Fin m → Bool
  good : Fin m → Prop
  flip2 : ∀ d, flip d * flip d = 1
  window : ∀ p c, share (fun d => flip d * p (axes d) + shift d) (cell c) = share p c
  wave : ∀ q, good q → ∀ d, t.k (mode q) d = (if opp q then -1 else 1) * (flip d * t.k q (axes d))
  forth : ∀ f q, t.r2c (fun c => f (cell.symm c)) (mode q) = Cx.mul (phase q) (Cx.conjIf (opp q) (t.r2c f q))
  back : ∀ g g' : Fin m → Cx, (∀ q, g' (mode q) = Cx.mul (phase q) (Cx.conjIf (opp q) (g q))) → ∀ c, t.c2r g' (cell c) = t.c2r g c
  homog : ∀ (e : ℚ) (g : Fin m → Cx) (c), t.c2r (fun q => (g q).smul e) c = e * t.c2r g c

/-- The image of a position. -/
def Sym.pos {n m : Nat} {share : V3 → Fin n → ℚ} {t : Fft n m} (S : Sym share t) (p : V3) : V3 := fun d => S.flip d * p (S.axes d) + S.shift d

/-- The image of a displacement. -/
def Sym.vec {n m : Nat} {share : V3 → Fin n → ℚ} {t : Fft n m} (S : Sym share t) (v : V3) : V3 := fun d => S.flip d * v (S.axes d)

theorem density_map {n : Nat} (share share' : V3 → Fin n → ℚ) (A : V3 → V3) (σ : Fin n → Fin n) (h : ∀ p c, share' (A p) (σ c) = share p c) (l : List V3)
    (c : Fin n) : density share' (l.map A) (σ c) = density share l c := by
  unfold density
  rw [List.map_map, List.length_map]
  congr 2
  apply List.map_congr_left
  intro p _
  exact h p c

/-- Moved positions with moved displacements give the field in moved cells. -/
theorem recon_map {n : Nat} (share share' : V3 → Fin n → ℚ) (A B : V3 → V3) (σ : Fin n → Fin n) (h : ∀ p c, share' (A p) (σ c) = share p c)
    (hm : ∀ p v, A (p - v) = A p - B v) (hp : ∀ p v, A (p + v) = A p + B v) (scheme : Scheme) (data ran : List V3) (md mr md' mr' : V3 → V3)
    (h1 : ∀ p, md' (A p) = B (md p)) (h2 : ∀ p, mr' (A p) = B (mr p)) (c : Fin n) :
    recon share' scheme (data.map A) (ran.map A) md' mr' (σ c) = recon share scheme data ran md mr c := by
  have e1 : ((data.map A).map fun p => p - md' p) = (data.map fun p => p - md p).map A := by
    rw [List.map_map, List.map_map]
    apply List.map_congr_left
    intro p _
    simp only [Function.comp, h1, hm]
  have e2 : ((ran.map A).map fun p => p - mr' p) = (ran.map fun p => p - mr p).map A := by
    rw [List.map_map, List.map_map]
    apply List.map_congr_left
    intro p _
    simp only [Function.comp, h2, hm]
  have e3 : ((ran.map A).map fun p => p + mr' p) = (ran.map fun p => p + mr p).map A := by
    rw [List.map_map, List.map_map]
    apply List.map_congr_left
    intro p _
    simp only [Function.comp, h2, hp]
  unfold recon
  simp only [e1, e2, e3, density_map share share' A σ h]

theorem sum_axes (π : Equiv.Perm (Fin 3)) (f : Fin 3 → ℚ) : f (π 0) + f (π 1) + f (π 2) = f 0 + f 1 + f 2 := by
  have h := Equiv.sum_comp π f
  simp only [Fin.sum_univ_three] at h
  exact h

theorem norm2_moved (π : Equiv.Perm (Fin 3)) (e : Fin 3 → ℚ) (he : ∀ d, e d * e d = 1) (o : ℚ) (ho : o * o = 1) (k : V3) :
    norm2 (fun d => o * (e d * k (π d))) = norm2 k := by
  unfold norm2
  have h := sum_axes π fun d => k d ^ 2
  have g : ∀ d, (o * (e d * k (π d))) ^ 2 = k (π d) ^ 2 := fun d => by
    rw [show (o * (e d * k (π d))) ^ 2 = (o * o) * (e d * e d) * k (π d) ^ 2 by ring, ho, he]
    ring
  rw [g, g, g]
  exact h

theorem dot_moved (π : Equiv.Perm (Fin 3)) (e : Fin 3 → ℚ) (o s : ℚ) (ho : o * o = 1) (hs : s * s = 1) (l : V3) (hl : ∀ d, e d * l (π d) = s * l (π d)) (k : V3) :
    dot (fun d => o * (e d * k (π d))) (fun d => l (π d)) ^ 2 = dot k l ^ 2 := by
  unfold dot
  have h := sum_axes π fun d => k d * l d
  have g : ∀ d, o * (e d * k (π d)) * l (π d) = (o * s) * (k (π d) * l (π d)) := fun d => by
    rw [show o * (e d * k (π d)) * l (π d) = o * k (π d) * (e d * l (π d)) by ring, hl]
    ring
  rw [g, g, g, ← mul_add, ← mul_add, h, mul_pow, show (o * s) ^ 2 = (o * o) * (s * s) by ring, ho, hs]
  ring

/-- The kernel of the image of a mode. -/
theorem kernel_moved (a : Attrs) (smooth : ℚ → ℚ) (π : Equiv.Perm (Fin 3)) (e : Fin 3 → ℚ) (he : ∀ d, e d * e d = 1) (opp : Bool) (s : ℚ) (hs : s * s = 1)
    (hl : ∀ d, e d * a.los (π d) = s * a.los (π d)) (k : V3) (ph v : Cx) (d : Fin 3) :
    kernel { a with los := fun d => a.los (π d) } smooth d (fun d => (if opp then -1 else 1) * (e d * k (π d))) (Cx.mul ph (Cx.conjIf opp v)) =
      Cx.mul ph (Cx.conjIf opp ((kernel a smooth (π d) k v).smul (e d))) := by
  have ho : (if opp then -1 else 1 : ℚ) * (if opp then -1 else 1) = 1 := by cases opp <;> norm_num
  unfold kernel
  simp only
  rw [norm2_moved π e he _ ho k, dot_moved π e _ s ho hs a.los hl k]
  generalize 1 / (a.bias * (1 + a.f / a.bias * (dot k a.los ^ 2 / if norm2 k = 0 then 1 else norm2 k))) = x
  generalize smooth (if norm2 k = 0 then 1 else norm2 k) = y
  generalize (if norm2 k = 0 then 1 else norm2 k) = z
  cases opp <;> simp only [Cx.smul, Cx.mulI, Cx.mul, Cx.conjIf, Bool.false_eq_true, if_false, if_true] <;> refine Prod.ext ?_ ?_ <;> simp only <;> ring

/-- The displacements move with the positions. -/
theorem psi_moved {n m : Nat} {share : V3 → Fin n → ℚ} {t : Fft n m} (S : Sym share t) (a : Attrs) (smooth : ℚ → ℚ) (s : ℚ) (hs : s * s = 1)
    (hl : ∀ d, S.flip d * a.los (S.axes d) = s * a.los (S.axes d)) (f : Fin n → ℚ)
    (hg : ∀ q, ¬ S.good q → t.r2c f q = (0, 0)) (p : V3) (d : Fin 3) :
    psi share t { a with los := fun d => a.los (S.axes d) } smooth (t.r2c fun c => f (S.cell.symm c)) (S.pos p) d =
      S.flip d * psi share t a smooth (t.r2c f) p (S.axes d) := by
  unfold psi readout
  rw [← Equiv.sum_comp S.cell, Finset.mul_sum]
  apply Finset.sum_congr rfl
  intro c _
  have hw : share (S.pos p) (S.cell c) = share p c := S.window p c
  rw [hw]
  have hb := S.back (fun q => (kernel a smooth (S.axes d) (t.k q) (t.r2c f q)).smul (S.flip d))
    (fun q => kernel { a with los := fun d => a.los (S.axes d) } smooth d (t.k q) (t.r2c (fun c => f (S.cell.symm c)) q)) (fun q => by
      rw [S.forth]
      by_cases hq : S.good q
      swap
      · rw [hg q hq]
        cases S.opp q <;> simp [kernel, Cx.smul, Cx.mulI, Cx.mul, Cx.conjIf]
      rw [show t.k (S.mode q) = (fun d => (if S.opp q then -1 else 1) * (S.flip d * t.k q (S.axes d))) from funext (S.wave q hq)]
      exact kernel_moved a smooth S.axes S.flip S.flip2 (S.opp q) s hs hl (t.k q) (S.phase q) (t.r2c f q) d) c
  rw [hb, S.homog]
  ring

/-- **C142.** Catalogs moved by a symmetry of the box (shifts by whole cells, exchanged axes, reflections), with the line of sight moved to its new axis,
give the moved field, whatever the ranks and chunks, if the data have no power in modes that are not good. A line of sight may be reversed by the reflection, but must not be mixed with other directions. -/
theorem run_moved {n m : Nat} (hn : n ≠ 0) {share : V3 → Fin n → ℚ} {t : Fft n m} (S : Sym share t) (a : Attrs) (smooth : ℚ → ℚ) (size size' : Nat)
    (hs : size ≠ 0) (hs' : size' ≠ 0) (scheme : Scheme) (data ran data' ran' : List (List V3)) (hd : data.flatten ≠ []) (hr : ran.flatten ≠ [])
    (pd : data'.flatten.Perm (data.flatten.map S.pos)) (pr : ran'.flatten.Perm (ran.flatten.map S.pos)) (s : ℚ) (h1 : s * s = 1)
    (hl : ∀ d, S.flip d * a.los (S.axes d) = s * a.los (S.axes d)) (hg : ∀ q, ¬ S.good q → t.r2c (density share data.flatten) q = (0, 0)) (F : Field n) (hF : run share t a smooth size scheme data ran = .ok F) :
    run share t { a with los := fun d => a.los (S.axes d) } smooth size' scheme data' ran' = .ok (F.map fun f c => f (S.cell.symm c)) := by
  have hdm : data.flatten.map S.pos ≠ [] := by simpa using hd
  have hrm : ran.flatten.map S.pos ≠ [] := by simpa using hr
  have hnorm : norm2 (fun d => a.los (S.axes d)) = norm2 a.los := by
    have := sum_axes S.axes fun d => a.los d ^ 2
    exact this
  have h0 : norm2 a.los ≠ 0 := by
    intro h0
    unfold run at hF
    simp [prepareLos, h0, bind, Except.bind] at hF
  have hlos : prepareLos a.los = .ok fun i => a.los i / norm2 a.los := by simp [prepareLos, h0]
  have hlos' : prepareLos (fun d => a.los (S.axes d)) = .ok fun i => a.los (S.axes i) / norm2 a.los := by
    unfold prepareLos
    rw [hnorm, if_neg h0]
  rw [run_eq hn share t a smooth size hs scheme data ran hd hr _ hlos] at hF
  have hF := (Except.ok.inj hF).symm
  have hp : run share t { a with los := fun d => a.los (S.axes d) } smooth size' scheme data' ran' =
      run share t { a with los := fun d => a.los (S.axes d) } smooth size scheme [data.flatten.map S.pos] [ran.flatten.map S.pos] :=
    (run_indep hn share t _ smooth size size' hs hs' scheme [data.flatten.map S.pos] [ran.flatten.map S.pos] data' ran' (by simpa using hd) (by simpa using hr)
      (by simpa using pd.symm) (by simpa using pr.symm)).symm
  rw [hp, run_eq hn share t { a with los := fun d => a.los (S.axes d) } smooth size hs scheme [data.flatten.map S.pos] [ran.flatten.map S.pos]
    (by simpa using hd) (by simpa using hr) _ hlos', hF]
  simp only [List.flatten_cons, List.flatten_nil, List.append_nil, Option.map_some]
  congr 2
  funext c
  obtain ⟨c0, rfl⟩ := S.cell.surjective c
  rw [Equiv.symm_apply_apply]
  have hden : density share (data.flatten.map S.pos) = fun c => density share data.flatten (S.cell.symm c) := by
    funext c
    obtain ⟨c1, rfl⟩ := S.cell.surjective c
    rw [Equiv.symm_apply_apply]
    exact density_map share share S.pos S.cell S.window data.flatten c1
  have hpsi : ∀ p d, psi share t { a with los := fun d => a.los (S.axes d) / norm2 a.los } smooth
      (t.r2c (density share (data.flatten.map S.pos))) (S.pos p) d =
      S.flip d * psi share t { a with los := fun i => a.los i / norm2 a.los } smooth (t.r2c (density share data.flatten)) p (S.axes d) := by
    intro p d
    rw [hden]
    exact psi_moved S { a with los := fun i => a.los i / norm2 a.los } smooth s h1 (fun d => by
      show S.flip d * (a.los (S.axes d) / norm2 a.los) = s * (a.los (S.axes d) / norm2 a.los)
      rw [← mul_div_assoc, hl, mul_div_assoc]) (density share data.flatten) hg p d
  refine recon_map share share S.pos S.vec S.cell S.window ?_ ?_ scheme data.flatten ran.flatten _ _ _ _ ?_ ?_ c0
  · intro p v
    funext d
    simp only [Sym.pos, Sym.vec, Pi.sub_apply]
    ring
  · intro p v
    funext d
    simp only [Sym.pos, Sym.vec, Pi.add_apply]
    ring
  · intro p
    funext d
    simp only [Sym.vec]
    rw [hpsi]
    ring
  · intro p
    funext d
    simp only [Sym.vec]
    rw [hpsi]
    ring

/-! ## Units -/

/-- **C142.** Positions, box and smoothing length in other units give the same field. -/
theorem run_units {n m : Nat} (hn : n ≠ 0) (share share' : V3 → Fin n → ℚ) (t t' : Fft n m) (c : ℚ) (hc : 0 < c)
    (hw : ∀ p x, share' (fun d => c * p d) x = share p x) (hk : ∀ q d, t'.k q d = t.k q d / c) (hf : t'.r2c = t.r2c) (hb : t'.c2r = t.c2r)
    (homog : ∀ (e : ℚ) (g : Fin m → Cx) (x), t.c2r (fun q => (g q).smul e) x = e * t.c2r g x) (smooth smooth' : ℚ → ℚ)
    (hsm : ∀ k2, smooth' (k2 / c ^ 2) = smooth k2) (a : Attrs) (size size' : Nat)
    (hs : size ≠ 0) (hs' : size' ≠ 0) (scheme : Scheme) (data ran data' ran' : List (List V3)) (hd : data.flatten ≠ []) (hr : ran.flatten ≠ [])
    (pd : data'.flatten.Perm (data.flatten.map fun p d => c * p d)) (pr : ran'.flatten.Perm (ran.flatten.map fun p d => c * p d)) :
    run share' t' a smooth' size' scheme data' ran' = run share t a smooth size scheme data ran := by
  have hp : run share' t' a smooth' size' scheme data' ran' =
      run share' t' a smooth' size scheme [data.flatten.map fun p d => c * p d] [ran.flatten.map fun p d => c * p d] :=
    (run_indep hn share' t' _ smooth' size size' hs hs' scheme [data.flatten.map fun p d => c * p d] [ran.flatten.map fun p d => c * p d] data' ran'
      (by simpa using hd) (by simpa using hr) (by simpa using pd.symm) (by simpa using pr.symm)).symm
  rw [hp]
  by_cases h0 : norm2 a.los = 0
  · unfold run
    simp [prepareLos, h0, bind, Except.bind]
  have hlos : prepareLos a.los = .ok fun i => a.los i / norm2 a.los := by simp [prepareLos, h0]
  rw [run_eq hn share t a smooth size hs scheme data ran hd hr _ hlos,
    run_eq hn share' t' a smooth' size hs scheme [data.flatten.map fun p d => c * p d] [ran.flatten.map fun p d => c * p d] (by simpa using hd) (by simpa using hr) _ hlos]
  simp only [List.flatten_cons, List.flatten_nil, List.append_nil]
  congr 2
  funext x
  have hden : density share' (data.flatten.map fun p d => c * p d) = density share data.flatten :=
    funext fun x => density_map share share' (fun p d => c * p d) id hw data.flatten x
  have hker : ∀ (A : Attrs) (d : Fin 3) (k : V3) (v : Cx), kernel A smooth' d (fun d => k d / c) v = (kernel A smooth d k v).smul c := by
    intro A d k v
    have hn2 : norm2 (fun d => k d / c) = norm2 k / c ^ 2 := by
      unfold norm2
      field_simp
    by_cases hz : norm2 k = 0
    · have h3 := norm2_zero k hz d
      unfold kernel
      simp only [h3, zero_div, Cx.smul, Cx.mulI, zero_mul, mul_zero, neg_zero]
    · have hz' : ¬ norm2 k / c ^ 2 = 0 := div_ne_zero hz (pow_ne_zero 2 hc.ne')
      unfold kernel
      simp only [hn2, hz, hz', if_false, hsm]
      have hdot : dot (fun d => k d / c) A.los ^ 2 / (norm2 k / c ^ 2) = dot k A.los ^ 2 / norm2 k := by
        rw [show dot (fun d => k d / c) A.los = dot k A.los / c by unfold dot; field_simp, div_pow, div_div_div_cancel_right₀ (pow_ne_zero 2 hc.ne')]
      rw [hdot]
      have hk2 : k d / c / (norm2 k / c ^ 2) = c * (k d / norm2 k) := by
        field_simp
      rw [hk2]
      simp only [Cx.smul, Cx.mulI]
      refine Prod.ext ?_ ?_ <;> simp only <;> ring
  have hpsi : ∀ A p d, psi share' t' A smooth' (t'.r2c (density share' (data.flatten.map fun p d => c * p d))) (fun d => c * p d) d =
      c * psi share t A smooth (t.r2c (density share data.flatten)) p d := by
    intro A p d
    unfold psi readout
    rw [hden, hf, hb, Finset.mul_sum]
    apply Finset.sum_congr rfl
    intro y _
    rw [hw, show (fun q => kernel A smooth' d (t'.k q) (t.r2c (density share data.flatten) q)) =
      fun q => (kernel A smooth d (t.k q) (t.r2c (density share data.flatten) q)).smul c from funext fun q => by
        rw [show t'.k q = fun d => t.k q d / c from funext (hk q)]; exact hker A d _ _, homog]
    ring
  refine recon_map share share' (fun p d => c * p d) (fun v d => c * v d) id hw ?_ ?_ scheme data.flatten ran.flatten _ _ _ _ ?_ ?_ x
  · intro p v; funext d; simp only [Pi.sub_apply]; ring
  · intro p v; funext d; simp only [Pi.add_apply]; ring
  · intro p; funext d; simp only [hpsi]; ring
  · intro p; funext d; simp only [hpsi]; ring

/-! ## Copies -/

theorem density_copies {n : Nat} (share : V3 → Fin n → ℚ) (j : Nat) (hj : 0 < j) (l l' : List V3) (h : l'.Perm (List.replicate j l).flatten) :
    density share l' = density share l := by
  funext c
  unfold density
  have hs : ∀ j : Nat, ((List.replicate j l).flatten.map fun p => share p c).sum = j * (l.map fun p => share p c).sum ∧
      ((List.replicate j l).flatten.length : ℚ) = j * l.length := by
    intro j
    induction j with
    | zero => simp
    | succ j ih =>
      rw [List.replicate_succ, List.flatten_cons, List.map_append, List.sum_append, ih.1, List.length_append]
      refine ⟨by push_cast; ring, by push_cast; rw [ih.2]; ring⟩
  rw [(h.map _).sum_eq, h.length_eq, (hs j).1, (hs j).2, mul_div_assoc (j : ℚ) (l.length : ℚ) (n : ℚ), mul_div_mul_left _ _ (by exact_mod_cast hj.ne')]

theorem copies_map {α β : Type} (f : α → β) (j : Nat) (l l' : List α) (h : l'.Perm (List.replicate j l).flatten) :
    (l'.map f).Perm (List.replicate j (l.map f)).flatten := by
  have := h.map f
  rwa [List.map_flatten, List.map_replicate] at this

/-- **C142.** Catalogs in which every object stands several times, data and randoms as often as one likes, give the same field. -/
theorem run_copies {n m : Nat} (hn : n ≠ 0) (share : V3 → Fin n → ℚ) (t : Fft n m) (a : Attrs) (smooth : ℚ → ℚ) (size size' : Nat)
    (hs : size ≠ 0) (hs' : size' ≠ 0) (scheme : Scheme) (data ran data' ran' : List (List V3)) (hd : data.flatten ≠ []) (hr : ran.flatten ≠ [])
    (j j' : Nat) (hj : 0 < j) (hj' : 0 < j') (pd : data'.flatten.Perm (List.replicate j data.flatten).flatten)
    (pr : ran'.flatten.Perm (List.replicate j' ran.flatten).flatten) :
    run share t a smooth size' scheme data' ran' = run share t a smooth size scheme data ran := by
  have hlen : ∀ (j : Nat) (l : List V3), (List.replicate j l).flatten.length = j * l.length := fun j l => by simp
  have hd' : data'.flatten ≠ [] := by
    intro h
    have := pd.length_eq
    rw [h, hlen, List.length_nil] at this
    rcases Nat.mul_eq_zero.mp this.symm with h1 | h1
    · omega
    · exact hd (List.eq_nil_of_length_eq_zero h1)
  have hr' : ran'.flatten ≠ [] := by
    intro h
    have := pr.length_eq
    rw [h, hlen, List.length_nil] at this
    rcases Nat.mul_eq_zero.mp this.symm with h1 | h1
    · omega
    · exact hr (List.eq_nil_of_length_eq_zero h1)
  by_cases h0 : norm2 a.los = 0
  · unfold run
    simp [prepareLos, h0, bind, Except.bind]
  have hlos : prepareLos a.los = .ok fun i => a.los i / norm2 a.los := by simp [prepareLos, h0]
  rw [run_eq hn share t a smooth size hs scheme data ran hd hr _ hlos, run_eq hn share t a smooth size' hs' scheme data' ran' hd' hr' _ hlos,
    density_copies share j hj _ _ pd]
  congr 2
  funext c
  unfold recon
  simp only
  rw [density_copies share j hj _ _ pd, density_copies share j hj _ _ (copies_map _ j _ _ pd), density_copies share j' hj' _ _ (copies_map _ j' _ _ pr),
    density_copies share j' hj' _ _ (copies_map _ j' _ _ pr)]

/-! ## Uniform data -/

/-- **C142.** Data without structure, or structure in the mode zero alone, are not moved, and neither are randoms: the field is the density of the data less
that of the randoms, in every scheme. -/
theorem run_uniform {n m : Nat} (hn : n ≠ 0) (share : V3 → Fin n → ℚ) (t : Fft n m) (a : Attrs) (smooth : ℚ → ℚ) (size : Nat) (hs : size ≠ 0) (scheme : Scheme)
    (data ran : List (List V3)) (hd : data.flatten ≠ []) (hr : ran.flatten ≠ []) (hl : norm2 a.los ≠ 0)
    (hz : ∀ x, t.c2r (fun _ => (0, 0)) x = 0) (hu : ∀ q, t.k q ≠ (fun _ => 0) → t.r2c (density share data.flatten) q = (0, 0)) :
    run share t a smooth size scheme data ran = .ok (some fun c => density share data.flatten c - density share ran.flatten c) := by
  have hlos : prepareLos a.los = .ok fun i => a.los i / norm2 a.los := by simp [prepareLos, hl]
  rw [run_eq hn share t a smooth size hs scheme data ran hd hr _ hlos]
  have hpsi : ∀ A p d, psi share t A smooth (t.r2c (density share data.flatten)) p d = 0 := by
    intro A p d
    unfold psi readout
    apply Finset.sum_eq_zero
    intro c _
    have : (fun q => kernel A smooth d (t.k q) (t.r2c (density share data.flatten) q)) = fun _ => ((0 : ℚ), (0 : ℚ)) := by
      funext q
      by_cases h : t.k q = fun _ => 0
      · unfold kernel
        simp only [h, zero_div, Cx.smul, Cx.mulI, zero_mul, neg_zero]
      · rw [hu q h]
        simp [kernel, Cx.smul, Cx.mulI]
    rw [this, hz, mul_zero]
  congr 2
  funext c
  unfold recon
  have e1 : ∀ l : List V3, (l.map fun p : V3 => p - fun _ : Fin 3 => (0 : ℚ)) = l := fun l => by
    conv_rhs => rw [← List.map_id l]
    apply List.map_congr_left
    intro p _
    funext d
    simp
  have e2 : ∀ l : List V3, (l.map fun p : V3 => p + fun _ : Fin 3 => (0 : ℚ)) = l := fun l => by
    conv_rhs => rw [← List.map_id l]
    apply List.map_congr_left
    intro p _
    funext d
    simp
  simp only [hpsi, zero_mul, e1, e2]
  cases scheme <;> simp only <;> ring

end NBK.Recon
