import Verif.Mock.Lemmas
import Mathlib.Tactic.LinearCombination
import Mathlib.Algebra.BigOperators.Ring.List

/-! # C77, C78: mock catalogs -/
set_option linter.unusedSimpArgs false

namespace NBK.Mock

variable {σ : Type}

/-- Specification: the number of objects in a cell, the item of the cell in the global random sequence. -/
def count (e : Env σ) (c : Cell) : Nat :=
  (Rng.stream e.chunk e.seeds1 e.poisson ((cells e.nmesh).map (cellmean e)) (flat e.nmesh c)).getD 0

/-- Specification: the cells of all objects, in C order of the cells. -/
def objects (e : Env σ) : List Cell := (cells e.nmesh).flatMap fun c => List.replicate (count e c) c

/-- Specification: the three random numbers of the `j`-th object. -/
def shift (e : Env σ) (j : Nat) : Option Vec :=
  Rng.stream e.chunk e.seeds2 e.uniform ((objects e).map fun _ => ()) j

/-- What is assumed: positive chunk size, generators that work item by item, sorting that sorts, cells with a volume, and the
local volumes of the ranks together being the mesh. -/
structure Ok (e : Env σ) (rav own : List (List Cell)) : Prop where
  chunk : 0 < e.chunk
  poisson : Rng.Sequential e.poisson
  uniform : Rng.Sequential e.uniform
  sort1 : Contract e.argsort1
  sort2 : Contract e.argsort2
  hx : e.H.x ≠ 0
  hy : e.H.y ≠ 0
  hz : e.H.z ≠ 0
  rav : rav.flatten = cells e.nmesh
  own : own.flatten.Perm (cells e.nmesh)

/-- **C78.** The catalog: every cell has as many objects as the global random sequence says, each with the displacement of its
cell and at a place in its cell given by its own item of a second global sequence; they are ordered by cell. Every rank keeps
as many objects as its cells have. Nothing depends on the number of ranks, the distribution of the cells and the order in which
the two sorts leave objects of one cell. -/
theorem sample_spec (e : Env σ) (rav own : List (List Cell)) (h : Ok e rav own) :
    ∃ pos disp, sample e rav own = .ok (pos, disp) ∧
      disp.flatten = (objects e).map e.disp ∧
      (pos.flatten.length = (objects e).length ∧ ∀ j, pos.flatten[j]? = ((objects e)[j]?).bind fun c =>
        (shift e j).map fun u => place e (corner e c) u) ∧
      pos.map List.length = own.map (fun r => (r.map (count e)).sum) ∧
      disp.map List.length = pos.map List.length := by
  have hn : (rav.map fun r => r.map (cellmean e)).flatten = (cells e.nmesh).map (cellmean e) := by
    rw [← List.map_flatten, h.rav]
  obtain ⟨nr, hnr, hnl, hns⟩ := Rng.call_stream e.chunk h.chunk e.seeds1 e.poisson h.poisson
    (rav.map fun r => r.map (cellmean e))
  rw [hn] at hns
  have hcount : ∀ c ∈ cells e.nmesh, nr.flatten.getD (flat e.nmesh c) 0 = count e c := by
    intro c hc
    have := hns (flat e.nmesh c) (by simpa [cells] using (mem_cells _ c hc).1)
    rw [List.getD_eq_getElem?_getD, this]; rfl
  have hmem : ∀ r ∈ own, ∀ c ∈ r, c ∈ cells e.nmesh := fun r hr c hc =>
    h.own.mem_iff.mp (List.mem_flatten.mpr ⟨r, hr, hc⟩)
  unfold sample
  simp only [bind, Except.bind, hnr, pure, Except.pure]
  -- the objects of the ranks
  have hobj : ∀ {β : Type} (g : Cell → β),
      (own.map fun r => r.flatMap fun c => List.replicate (nr.flatten.getD (flat e.nmesh c) 0) (g c)) =
      own.map fun r => r.flatMap fun c => List.replicate (count e c) (g c) := by
    intro β g
    apply List.map_congr_left
    intro r hr
    rw [List.flatMap_def, List.flatMap_def]
    congr 1
    apply List.map_congr_left
    intro c hc
    rw [hcount c (hmem r hr c hc)]
  rw [hobj (corner e), hobj e.disp]
  clear hobj
  generalize hP : (own.map fun r => r.flatMap fun c => List.replicate (count e c) (corner e c)) = P
  generalize hD : (own.map fun r => r.flatMap fun c => List.replicate (count e c) (e.disp c)) = D
  have hflat : ∀ {β : Type} (g : Cell → β), (own.map fun r => r.flatMap fun c => List.replicate (count e c) (g c)).flatten =
      own.flatten.flatMap fun c => List.replicate (count e c) (g c) := by
    intro β g
    generalize own = o
    induction o with
    | nil => rfl
    | cons r o ih => simp [ih]
  have hkeys : P.flatten.map (orderby e) = own.flatten.flatMap fun c => List.replicate (count e c) (flat e.nmesh c : Int) := by
    rw [← hP, hflat, List.map_flatMap]
    simp only [List.map_replicate, orderby_corner e h.hx h.hy h.hz]
  rw [hkeys]
  generalize hK : (own.flatten.flatMap fun c => List.replicate (count e c) (flat e.nmesh c : Int)) = keys
  have hgen : ∀ {β : Type} (g : Cell → β), (own.flatten.flatMap fun c => List.replicate (count e c) (g c)) =
      keys.map fun id => g (cellOf e.nmesh id.toNat) := by
    intro β g
    rw [← hK, List.map_flatMap, List.flatMap_def, List.flatMap_def]
    congr 1
    apply List.map_congr_left
    intro c hc
    rw [List.map_replicate, Int.toNat_natCast, (mem_cells _ c (h.own.mem_iff.mp hc)).2]
  have hcan : keys.Perm ((objects e).map fun c => (flat e.nmesh c : Int)) := by
    rw [← hK, objects, List.map_flatMap]
    simp only [List.map_replicate]
    exact h.own.flatMap_right _
  have hcans : ((objects e).map fun c => (flat e.nmesh c : Int)).Pairwise (· ≤ ·) := by
    rw [objects, List.map_flatMap, cells, List.flatMap_map]
    simp only [List.map_replicate, flat_cellOf]
    exact pairwise_ids (fun i => count e (cellOf e.nmesh i)) _
  have hback : ∀ {β : Type} (g : Cell → β), (((objects e).map fun c => (flat e.nmesh c : Int)).map
      fun id => g (cellOf e.nmesh id.toNat)) = (objects e).map g := by
    intro β g
    rw [List.map_map]
    apply List.map_congr_left
    intro c hc
    obtain ⟨c', hc', hr⟩ := List.mem_flatMap.mp hc
    rw [List.eq_of_mem_replicate hr]
    simp only [Function.comp, Int.toNat_natCast]
    rw [(mem_cells _ c' hc').2]
  have hsort : ∀ {β : Type} (g : Cell → β) (srt : List Int → List Nat), Contract srt →
      ∀ Q : List (List β), (own.map fun r => r.flatMap fun c => List.replicate (count e c) (g c)) = Q →
      (sortAs (srt keys) Q).flatten = (objects e).map g ∧
      (sortAs (srt keys) Q).map List.length = own.map fun r => (r.map (count e)).sum := by
    intro β g srt hs Q hQ
    have hQf : Q.flatten = keys.map fun id => g (cellOf e.nmesh id.toNat) := by rw [← hQ, hflat, hgen]
    have hS : ((srt keys).filterMap fun i => Q.flatten[i]?) = (objects e).map g := by
      rw [hQf, map_filterMap, sorted_keys srt hs keys _ hcan hcans, hback]
    have hl : ((objects e).map g).length = Q.flatten.length := by
      have := hcan.length_eq
      rw [hQf, List.length_map, List.length_map, this, List.length_map]
    refine ⟨sortAs_flatten _ _ _ hS hl, ?_⟩
    rw [sortAs_length _ _ (by rw [hS, hl]), ← hQ, List.map_map]
    apply List.map_congr_left
    intro r _
    simp [List.length_flatMap]
  obtain ⟨p1, p2⟩ := hsort (corner e) e.argsort1 h.sort1 P hP
  obtain ⟨d1, d2⟩ := hsort e.disp e.argsort2 h.sort2 D hD
  generalize sortAs (e.argsort1 keys) P = P' at *
  generalize sortAs (e.argsort2 keys) D = D' at *
  have hu : (P'.map fun r => r.map fun _ => ()).flatten = (objects e).map fun _ => () := by
    rw [← List.map_flatten, p1, List.map_map]; try rfl
  obtain ⟨sh, hsh, hsl, hss⟩ := Rng.call_stream e.chunk h.chunk e.seeds2 e.uniform h.uniform (P'.map fun r => r.map fun _ => ())
  rw [hu] at hss
  simp only [hsh]
  have hlen : P'.map List.length = sh.map List.length := by
    rw [hsl, List.map_map]
    apply List.map_congr_left
    intro r _
    simp
  obtain ⟨z1, z2⟩ := zipWith_flatten (place e) P' sh hlen
  have hshl : sh.flatten.length = (objects e).length := by
    rw [List.length_flatten, ← hlen, ← List.length_flatten, p1, List.length_map]
  refine ⟨_, _, rfl, d1, ⟨?_, ?_⟩, by rw [z2, p2], by rw [z2, p2, d2]⟩
  · rw [z1, List.length_zipWith, p1, hshl]; simp
  · intro j
    rw [z1, List.getElem?_zipWith, p1, List.getElem?_map]
    cases ho : (objects e)[j]? with
    | none => simp
    | some c =>
      have hj : j < (objects e).length := (List.getElem?_eq_some_iff.mp ho).1
      rw [hss j (by simpa using hj)]
      simp only [Option.map_some, Option.bind_some, shift]
      cases Rng.stream e.chunk e.seeds2 e.uniform ((objects e).map fun _ => ()) j <;> rfl

/-- **C78** (ranks). The catalog is the same, object by object, for every number of ranks, layout of the flat arrays and
decomposition of the mesh. -/
theorem sample_indep (e : Env σ) (rav own rav' own' : List (List Cell)) (h : Ok e rav own) (h' : Ok e rav' own') :
    ∃ pos disp pos' disp', sample e rav own = .ok (pos, disp) ∧ sample e rav' own' = .ok (pos', disp') ∧
      pos.flatten = pos'.flatten ∧ disp.flatten = disp'.flatten := by
  obtain ⟨p, d, h1, h2, ⟨_, h3⟩, _⟩ := sample_spec e rav own h
  obtain ⟨p', d', h1', h2', ⟨_, h3'⟩, _⟩ := sample_spec e rav' own' h'
  exact ⟨p, d, p', d', h1, h1', List.ext_getElem? fun j => by rw [h3, h3'], by rw [h2, h2']⟩

/-- The objects of a cell are as many as its count. -/
theorem objects_count (e : Env σ) (c : Cell) (hc : c ∈ cells e.nmesh) : (objects e).count c = count e c := by
  have key : ∀ l : List Cell, l.Nodup → c ∈ l → (l.flatMap fun c => List.replicate (count e c) c).count c = count e c := by
    intro l hl hm
    induction l with
    | nil => cases hm
    | cons a l ih =>
      rw [List.flatMap_cons, List.count_append]
      have hz : ∀ m : List Cell, c ∉ m → (m.flatMap fun c => List.replicate (count e c) c).count c = 0 := by
        intro m hm
        rw [List.count_eq_zero]
        intro hc
        obtain ⟨b, hb, hr⟩ := List.mem_flatMap.mp hc
        exact hm ((List.eq_of_mem_replicate hr) ▸ hb)
      obtain ⟨h1, h2⟩ := List.nodup_cons.mp hl
      by_cases hac : a = c
      · subst hac
        rw [hz l h1]; simp
      · have hcl : c ∈ l := by
          rcases List.mem_cons.mp hm with h | h
          · exact absurd h.symm hac
          · exact h
        rw [ih h2 hcl, List.count_replicate]
        simp [hac]
  apply key _ _ hc
  unfold cells
  apply List.Nodup.map_on _ List.nodup_range
  intro x _ y _ hxy
  rw [← flat_cellOf e.nmesh x, ← flat_cellOf e.nmesh y, hxy]

/-- The mean numbers of the cells add up to the number density times the volume. -/
theorem mean_total (e : Env σ) (hpos : ∀ x, 0 < e.exp x) (hn : ncells e.nmesh ≠ 0) :
    ((cells e.nmesh).map (cellmean e)).sum = e.nbar * (e.H.x * e.H.y * e.H.z * ncells e.nmesh) := by
  have hs : 0 < ((cells e.nmesh).map fun c => e.exp ((e.bias - 1) * e.delta c)).sum := by
    have hne : cells e.nmesh ≠ [] := by
      unfold cells
      intro h
      have := congrArg List.length h
      simp at this
      exact hn this
    generalize cells e.nmesh = l at hne
    cases l with
    | nil => exact absurd rfl hne
    | cons a l =>
      rw [List.map_cons, List.sum_cons]
      have : 0 ≤ (l.map fun c => e.exp ((e.bias - 1) * e.delta c)).sum :=
        List.sum_nonneg (by intro x hx; obtain ⟨c, _, rfl⟩ := List.mem_map.mp hx; exact (hpos _).le)
      have := hpos ((e.bias - 1) * e.delta a)
      linarith
  have hn' : (ncells e.nmesh : ℚ) ≠ 0 := by exact_mod_cast hn
  have e1 : ((cells e.nmesh).map (cellmean e)) = (cells e.nmesh).map fun c => e.exp ((e.bias - 1) * e.delta c) *
      (1 / (((cells e.nmesh).map fun c => e.exp ((e.bias - 1) * e.delta c)).sum / ncells e.nmesh) *
        (e.H.x * e.H.y * e.H.z * e.nbar)) := by
    apply List.map_congr_left
    intro c _
    unfold cellmean lognormal
    rw [div_eq_mul_one_div]; ring
  rw [e1, List.sum_map_mul_right]
  generalize ((cells e.nmesh).map fun c => e.exp ((e.bias - 1) * e.delta c)).sum = s at *
  have : s ≠ 0 := ne_of_gt hs
  field_simp

theorem wrap_small (x L : ℚ) (h0 : 0 ≤ x) (h1 : x < L) : wrap x L = x := by
  have hL : 0 < L := lt_of_le_of_lt h0 h1
  have : ⌊x / L⌋ = 0 := by
    rw [Int.floor_eq_iff]
    push_cast
    constructor
    · exact div_nonneg h0 hL.le
    · rw [zero_add, div_lt_one hL]; exact h1
  simp [wrap, this]

theorem wrap_mem (x L : ℚ) (hL : 0 < L) : 0 ≤ wrap x L ∧ wrap x L < L := by
  have h1 := Int.floor_le (x / L)
  have h2 := Int.lt_floor_add_one (x / L)
  rw [le_div_iff₀ hL] at h1
  rw [div_lt_iff₀ hL] at h2
  unfold wrap
  constructor <;> nlinarith

/-- All objects are in the box. -/
theorem place_box (e : Env σ) (p u : Vec) (hx : 0 < e.H.x * e.nmesh.i) (hy : 0 < e.H.y * e.nmesh.j) (hz : 0 < e.H.z * e.nmesh.k) :
    (0 ≤ (place e p u).x ∧ (place e p u).x < e.H.x * e.nmesh.i) ∧ (0 ≤ (place e p u).y ∧ (place e p u).y < e.H.y * e.nmesh.j) ∧
    (0 ≤ (place e p u).z ∧ (place e p u).z < e.H.z * e.nmesh.k) :=
  ⟨wrap_mem _ _ hx, wrap_mem _ _ hy, wrap_mem _ _ hz⟩

/-- **C78** (partial: cubic cells). In a mesh with cubic cells an object is uniform in its cell: the position is the corner
plus the cell times the random numbers. -/
theorem place_cell_partial (e : Env σ) (hH : 0 < e.H.z) (hxy : e.H.x = e.H.z ∧ e.H.y = e.H.z) (c : Cell)
    (hc : c.i < e.nmesh.i ∧ c.j < e.nmesh.j ∧ c.k < e.nmesh.k) (u : Vec)
    (hu : (0 ≤ u.x ∧ u.x < 1) ∧ (0 ≤ u.y ∧ u.y < 1) ∧ (0 ≤ u.z ∧ u.z < 1)) :
    place e (corner e c) u = ⟨(c.i + u.x) * e.H.x, (c.j + u.y) * e.H.y, (c.k + u.z) * e.H.z⟩ := by
  have key : ∀ (i n : Nat) (u : ℚ), i < n → 0 ≤ u → u < 1 → wrap (i * e.H.z + e.H.z * u) (e.H.z * n) = (i + u) * e.H.z := by
    intro i n u hi h0 h1
    have hi' : (i : ℚ) + 1 ≤ n := by exact_mod_cast hi
    have hi0 : (0 : ℚ) ≤ i := by positivity
    rw [wrap_small _ _ (by nlinarith) (by nlinarith)]; ring
  unfold place corner
  rw [hxy.1, hxy.2]
  simp only [key _ _ _ hc.1 hu.1.1 hu.1.2, key _ _ _ hc.2.1 hu.2.1.1 hu.2.1.2, key _ _ _ hc.2.2 hu.2.2.1 hu.2.2.2]

/-- **C78** (negation). In a mesh whose cells are longer along the last axis objects leave their cell along the others: with
cells of 1 x 1 x 4, an object of the cell 0 with the random number 3/4 is at x = 3. With cells of 4 x 4 x 1 all objects are in the first
quarter of the cell. -/
theorem place_wrong (e : Env σ) (u : Vec) :
    (e.H = ⟨1, 1, 4⟩ → e.nmesh = ⟨8, 8, 2⟩ → u = ⟨3 / 4, 0, 0⟩ → place e (corner e ⟨0, 0, 0⟩) u = ⟨3, 0, 0⟩) ∧
    (e.H = ⟨4, 4, 1⟩ → e.nmesh = ⟨2, 2, 8⟩ → ((0 ≤ u.x ∧ u.x < 1) ∧ (0 ≤ u.y ∧ u.y < 1) ∧ (0 ≤ u.z ∧ u.z < 1)) →
      ∀ c : Cell, c.i < 2 → (place e (corner e c) u).x < c.i * 4 + 1) := by
  constructor
  · rintro hH hn rfl
    have h1 : wrap 3 8 = 3 := wrap_small _ _ (by norm_num) (by norm_num)
    have h2 : wrap 0 8 = 0 := wrap_small _ _ (by norm_num) (by norm_num)
    simp only [place, corner, hH, hn]
    norm_num [h1, h2]
  · intro hH hn hu c hc
    have hc' : (c.i : ℚ) ≤ 1 := by exact_mod_cast Nat.le_of_lt_succ hc
    have hc0 : (0 : ℚ) ≤ c.i := by positivity
    simp only [place, corner, hH, hn]
    rw [wrap_small _ _ (by nlinarith [hu.1.1]) (by push_cast; nlinarith [hu.1.2])]
    linarith [hu.1.2]

/-- The parts of a mode of the density: the white noise scaled, with the sign of the phase, and nothing at `k = 0`. -/
theorem gauss_delta (inverted : Bool) (amp : ℚ → ℚ) (k : Vec) (w : Cx) :
    gaussDelta inverted amp k w = if k.x ^ 2 + k.y ^ 2 + k.z ^ 2 = 0 then ⟨0, 0⟩ else
      ⟨(if inverted then -1 else 1) * amp (k.x ^ 2 + k.y ^ 2 + k.z ^ 2) * w.re,
       (if inverted then -1 else 1) * amp (k.x ^ 2 + k.y ^ 2 + k.z ^ 2) * w.im⟩ := by
  unfold gaussDelta
  by_cases h : k.x ^ 2 + k.y ^ 2 + k.z ^ 2 = 0
  · simp [h]
  · simp only [h, if_false]
    cases inverted <;> simp <;> constructor <;> ring

/-- **C77** (power). The power of a mode is the power of the white noise times `amp^2 = P(k) / V`, with or without inverted
phase. -/
theorem gauss_power (inverted : Bool) (amp P : ℚ → ℚ) (V : ℚ) (hamp : ∀ k2, amp k2 ^ 2 = P k2 / V) (hV : V ≠ 0) (k : Vec) (w : Cx)
    (hk : k.x ^ 2 + k.y ^ 2 + k.z ^ 2 ≠ 0) :
    V * ((gaussDelta inverted amp k w).re ^ 2 + (gaussDelta inverted amp k w).im ^ 2) =
      P (k.x ^ 2 + k.y ^ 2 + k.z ^ 2) * (w.re ^ 2 + w.im ^ 2) := by
  rw [gauss_delta, if_neg hk]
  have h := hamp (k.x ^ 2 + k.y ^ 2 + k.z ^ 2)
  generalize k.x ^ 2 + k.y ^ 2 + k.z ^ 2 = k2 at *
  rw [eq_div_iff hV] at h
  cases inverted
  · simp only [Bool.false_eq_true, if_false]
    linear_combination (w.re ^ 2 + w.im ^ 2) * h
  · simp only [if_true]
    linear_combination (w.re ^ 2 + w.im ^ 2) * h

/-- **C77** (pairs). Inverting the phase changes the sign of every mode of the density and of the displacement. -/
theorem gauss_inverted (amp : ℚ → ℚ) (comp : Vec → ℚ) (k : Vec) (w : Cx) :
    (gaussDelta true amp k w).re = -(gaussDelta false amp k w).re ∧ (gaussDelta true amp k w).im = -(gaussDelta false amp k w).im ∧
    (gaussDisp comp k (gaussDelta true amp k w)).re = -(gaussDisp comp k (gaussDelta false amp k w)).re ∧
    (gaussDisp comp k (gaussDelta true amp k w)).im = -(gaussDisp comp k (gaussDelta false amp k w)).im := by
  rw [gauss_delta, gauss_delta]
  by_cases h : k.x ^ 2 + k.y ^ 2 + k.z ^ 2 = 0
  · simp [h, gaussDisp]
  · simp only [h, if_false, gaussDisp]
    simp

/-- **C77** (displacement). Minus the divergence of the displacement is the density: `-i k . psi = delta` in every mode, with
`psi` along `k`, and nothing moves at `k = 0`. -/
theorem gauss_divergence (inverted : Bool) (amp : ℚ → ℚ) (k : Vec) (w : Cx) :
    let d := gaussDelta inverted amp k w
    let px := gaussDisp Vec.x k d
    let py := gaussDisp Vec.y k d
    let pz := gaussDisp Vec.z k d
    k.x * px.im + k.y * py.im + k.z * pz.im = d.re ∧ -(k.x * px.re + k.y * py.re + k.z * pz.re) = d.im ∧
    (k.x * py.re = k.y * px.re ∧ k.x * py.im = k.y * px.im) ∧ (k.x * pz.re = k.z * px.re ∧ k.x * pz.im = k.z * px.im) ∧
    (k.y * pz.re = k.z * py.re ∧ k.y * pz.im = k.z * py.im) := by
  intro d px py pz
  by_cases h : k.x ^ 2 + k.y ^ 2 + k.z ^ 2 = 0
  · have hd : d = ⟨0, 0⟩ := by show gaussDelta inverted amp k w = _; rw [gauss_delta, if_pos h]
    have h' : ∀ comp, gaussDisp comp k d = ⟨0, 0⟩ := by intro comp; simp [gaussDisp, h]
    simp [px, py, pz, h', hd]
  · have h' : ∀ comp, gaussDisp comp k d = ⟨-(comp k / (k.x ^ 2 + k.y ^ 2 + k.z ^ 2) * d.im), comp k / (k.x ^ 2 + k.y ^ 2 + k.z ^ 2) * d.re⟩ := by
      intro comp; simp [gaussDisp, h]
    simp only [px, py, pz, h']
    generalize hk : k.x ^ 2 + k.y ^ 2 + k.z ^ 2 = k2 at *
    refine ⟨?_, ?_, ⟨?_, ?_⟩, ⟨?_, ?_⟩, ⟨?_, ?_⟩⟩
    · have : k.x * (k.x / k2 * d.re) + k.y * (k.y / k2 * d.re) + k.z * (k.z / k2 * d.re) =
        (k.x ^ 2 + k.y ^ 2 + k.z ^ 2) / k2 * d.re := by ring
      rw [this, hk, div_self h, one_mul]
    · have : -(k.x * -(k.x / k2 * d.im) + k.y * -(k.y / k2 * d.im) + k.z * -(k.z / k2 * d.im)) =
        (k.x ^ 2 + k.y ^ 2 + k.z ^ 2) / k2 * d.im := by ring
      rw [this, hk, div_self h, one_mul]
    all_goals ring

/-- Sorting by the keys. -/
def exSort (keys : List Int) : List Nat := (List.range keys.length).mergeSort fun a b => decide (keys.getD a 0 ≤ keys.getD b 0)

theorem exSort_contract : Contract exSort := by
  intro keys
  refine ⟨List.mergeSort_perm _ _, ?_⟩
  have hs := List.pairwise_mergeSort (le := fun a b => decide (keys.getD a 0 ≤ keys.getD b 0))
    (by intro a b c h1 h2; simp only [decide_eq_true_eq] at *; exact le_trans h1 h2)
    (by intro a b; simp only [Bool.or_eq_true, decide_eq_true_eq]; exact le_total _ _) (List.range keys.length)
  rw [List.pairwise_filterMap]
  refine hs.imp ?_
  intro a b hab x hx y hy
  simp only [decide_eq_true_eq, List.getD_eq_getElem?_getD] at hab
  rw [hx, hy] at hab
  exact hab

/-- A mesh of 2 x 1 x 2 cells with two objects in the cells of odd index. -/
def exEnv : Env Nat where
  nmesh := ⟨2, 1, 2⟩
  H := ⟨1, 2, 3⟩
  nbar := 1
  bias := 2
  exp := fun _ => 1
  delta := fun _ => 0
  disp := fun c => ⟨c.i, c.j, c.k⟩
  chunk := 3
  seeds1 := fun i => i
  seeds2 := fun i => i + 7
  poisson := fun s rows => rows.mapIdx fun i _ => 2 * ((s + i) % 2)
  uniform := fun s rows => rows.mapIdx fun i _ => ⟨1 / (s + i + 1), 0, 1 / 2⟩
  argsort1 := exSort
  argsort2 := exSort

/-- The hypotheses hold for two ranks that share the cells out of order. -/
example : Ok exEnv [[⟨0, 0, 0⟩], [⟨0, 0, 1⟩, ⟨1, 0, 0⟩, ⟨1, 0, 1⟩]] [[⟨1, 0, 0⟩, ⟨0, 0, 1⟩], [⟨0, 0, 0⟩, ⟨1, 0, 1⟩], []] where
  chunk := by decide
  poisson := ⟨by intro s rows; simp [exEnv], by
    intro s rows n
    apply List.ext_getElem?
    intro i
    simp only [exEnv, List.getElem?_mapIdx, List.getElem?_take]
    split <;> simp⟩
  uniform := ⟨by intro s rows; simp [exEnv], by
    intro s rows n
    apply List.ext_getElem?
    intro i
    simp only [exEnv, List.getElem?_mapIdx, List.getElem?_take]
    split <;> simp⟩
  sort1 := exSort_contract
  sort2 := exSort_contract
  hx := by decide
  hy := by decide
  hz := by decide
  rav := by decide
  own := by decide

example : objects exEnv = [⟨0, 0, 1⟩, ⟨0, 0, 1⟩, ⟨1, 0, 1⟩, ⟨1, 0, 1⟩] := by decide +kernel

/-- The cells are those of the mesh, each once. -/
theorem cells_all (n : Cell) : (cells n).Nodup ∧ (cells n).length = n.i * n.j * n.k ∧ ∀ c, c ∈ cells n ↔ c.i < n.i ∧ c.j < n.j ∧ c.k < n.k := by
  have hmem : ∀ c, c ∈ cells n ↔ c.i < n.i ∧ c.j < n.j ∧ c.k < n.k := by
    intro c
    unfold cells ncells
    rw [List.mem_map]
    constructor
    · rintro ⟨id, hid, rfl⟩
      rw [List.mem_range] at hid
      have hk : 0 < n.k := Nat.pos_of_ne_zero fun h => by rw [h] at hid; simp at hid
      have hj : 0 < n.j := Nat.pos_of_ne_zero fun h => by rw [h] at hid; simp at hid
      refine ⟨?_, Nat.mod_lt _ hj, Nat.mod_lt _ hk⟩
      show id / n.k / n.j < n.i
      rw [Nat.div_div_eq_div_mul]
      exact Nat.div_lt_of_lt_mul (by rw [Nat.mul_comm n.k, Nat.mul_comm]; rw [← Nat.mul_assoc]; exact hid)
    · rintro ⟨h1, h2, h3⟩
      refine ⟨flat n c, ?_, ?_⟩
      · rw [List.mem_range]
        unfold flat
        have a1 : c.i * n.j + c.j < n.i * n.j := by
          calc c.i * n.j + c.j < c.i * n.j + n.j := by omega
            _ = (c.i + 1) * n.j := by ring
            _ ≤ n.i * n.j := Nat.mul_le_mul_right _ h1
        calc (c.i * n.j + c.j) * n.k + c.k < (c.i * n.j + c.j) * n.k + n.k := by omega
          _ = (c.i * n.j + c.j + 1) * n.k := by ring
          _ ≤ n.i * n.j * n.k := Nat.mul_le_mul_right _ a1
      · unfold cellOf flat
        have b1 : ((c.i * n.j + c.j) * n.k + c.k) / n.k = c.i * n.j + c.j := by
          rw [Nat.add_comm, Nat.add_mul_div_right _ _ (by omega), Nat.div_eq_of_lt h3, Nat.zero_add]
        have b2 : ((c.i * n.j + c.j) * n.k + c.k) % n.k = c.k := by
          rw [Nat.add_comm, Nat.add_mul_mod_self_right, Nat.mod_eq_of_lt h3]
        have b3 : (c.i * n.j + c.j) / n.j = c.i := by
          rw [Nat.add_comm, Nat.add_mul_div_right _ _ (by omega), Nat.div_eq_of_lt h2, Nat.zero_add]
        have b4 : (c.i * n.j + c.j) % n.j = c.j := by
          rw [Nat.add_comm, Nat.add_mul_mod_self_right, Nat.mod_eq_of_lt h2]
        rw [b1, b2, b3, b4]
  refine ⟨?_, ?_, hmem⟩
  · unfold cells
    apply List.Nodup.map_on _ List.nodup_range
    intro a _ b _ h
    have := congrArg (flat n) h
    rwa [flat_cellOf, flat_cellOf] at this
  · unfold cells ncells; simp

end NBK.Mock
