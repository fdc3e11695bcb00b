import Verif.Pairs.Lemmas

set_option linter.unusedSimpArgs false

/-! C48 and C49: pair counts and their normalisation do not depend on the distribution. -/
namespace NBK.Pairs

/-- C48, with the separation column of the bins without pairs: it is zero if Corrfunc reports zero. -/
theorem pairCount_full {A B : Type} (n : Nat) (bin : A → B → Option Nat) (w s : A → B → ℚ) (md : Mode) (q : ℚ)
    (m : Option Nat) (hm : ∀ k, m = some k → 0 < k ∧ k ∣ n) (sp : Bool) (tree : Tree) (lay : Layout A B)
    (sm bm : ℚ) (D1 : List (List A)) (D2 : List (List B))
    (htree : tree.ranks.Perm (List.range D1.length))
    (howner : ∀ a ∈ D1.flatten, lay.owner a < D1.length)
    (hghost : ∀ a ∈ D1.flatten, ∀ c ∈ D2.flatten, bin a c ≠ none → lay.owner a ∈ lay.ghosts c) :
    ∃ out, pairCount n bin w s (sepColumn md) (some q) m sp tree lay sm bm D1 D2 = .ok out ∧
      (m = none → out.shape = [n]) ∧ (∀ k, m = some k → out.shape = [n / k, k]) ∧ out.rows.length = n ∧
      ∀ b < n, ∃ o, out.rows[b]? = some o ∧
        o.npairs = (D1.flatten.map fun a => D2.flatten.countP fun c => bin a c = some b).sum ∧
        o.wnpairs = some (D1.flatten.map fun a =>
          (D2.flatten.map fun c => if bin a c = some b then w a c else 0).sum).sum ∧
        (0 < o.npairs → o.x = some ((D1.flatten.map fun a =>
          (D2.flatten.map fun c => if bin a c = some b then s a c else 0).sum).sum / o.npairs)) ∧
        (q = 0 → o.npairs = 0 → o.x = some 0) := by
  obtain ⟨f, hf, hcall⟩ := callAll_rep n bin w s md q (secondaries lay sm bm D2) m hm sp tree (exchange1 lay D1)
    D1.length (fun r hr => List.mem_range.mp (htree.mem_iff.mp hr))
  have hperm : ∀ b, (tree.ranks.flatMap fun d =>
      pairsIn bin (exchange1 lay D1 d) (secondaries lay sm bm D2 d) b).Perm
        (pairsIn bin D1.flatten D2.flatten b) := by
    intro b
    refine (htree.flatMap_right _).trans ?_
    refine List.Perm.trans (List.Perm.of_eq ?_) (pairsIn_ranks bin lay D1 D2.flatten b D1.length howner)
    congr 1
    funext d
    exact pairsIn_local bin lay sm bm D1 D2 d b hghost
  have hlen : ∀ b, (tree.ranks.map fun r =>
      (pairsIn bin (exchange1 lay D1 r) (secondaries lay sm bm D2 r) b).length).sum =
        (pairsIn bin D1.flatten D2.flatten b).length := by
    intro b
    rw [← length_flatMap_range, (hperm b).length_eq]
  have hsum : ∀ (g : A → B → ℚ) (b : Nat), (tree.ranks.map fun r =>
      psum g (pairsIn bin (exchange1 lay D1 r) (secondaries lay sm bm D2 r) b)).sum =
        psum g (pairsIn bin D1.flatten D2.flatten b) := by
    intro g b
    rw [← psum_flatMap, psum_perm g (hperm b)]
  refine ⟨_, hcall, ?_, ?_, by simp, ?_⟩
  · rintro rfl; rfl
  · rintro k rfl; rfl
  · intro b hb
    refine ⟨_, by rw [List.getElem?_map, List.getElem?_range hb]; rfl, ?_, ?_, ?_, ?_⟩
    · dsimp only; rw [hlen, length_pairsIn]
    · dsimp only; rw [hsum, psum_pairsIn]
    · dsimp only
      intro hpos
      have h := (hf b hb).1
      rw [hsum, hlen] at h
      rw [hlen, ← psum_pairsIn, ← h]
      rw [hlen] at hpos
      congr 1
      have : ((pairsIn bin D1.flatten D2.flatten b).length : ℚ) ≠ 0 := by
        exact_mod_cast Nat.pos_iff_ne_zero.mp hpos
      field_simp
    · dsimp only
      intro hq h0
      rw [(hf b hb).2 hq h0]

/-- C48: on any number of ranks, for any distribution of the two sources, any decomposition that sends every
primary to one rank and to that rank all secondaries it can be paired with, any chunking (`show_progress`), and any
order of the final reduction, the result of a bin is

* `npairs`: the number of pairs of the two catalogs in the bin,
* `wnpairs`: the sum of the products of weights over these pairs,
* the separation column: the mean separation of these pairs, if there is any.

The shape is the number of bins, or the bins of both dimensions.  Corrfunc's averages in empty bins must be finite
(`q`), see `empty_nan`. -/
theorem pairCount_eq {A B : Type} (n : Nat) (bin : A → B → Option Nat) (w s : A → B → ℚ) (md : Mode) (q : ℚ)
    (m : Option Nat) (hm : ∀ k, m = some k → 0 < k ∧ k ∣ n) (sp : Bool) (tree : Tree) (lay : Layout A B)
    (sm bm : ℚ) (D1 : List (List A)) (D2 : List (List B))
    (htree : tree.ranks.Perm (List.range D1.length))
    (howner : ∀ a ∈ D1.flatten, lay.owner a < D1.length)
    (hghost : ∀ a ∈ D1.flatten, ∀ c ∈ D2.flatten, bin a c ≠ none → lay.owner a ∈ lay.ghosts c) :
    ∃ out, pairCount n bin w s (sepColumn md) (some q) m sp tree lay sm bm D1 D2 = .ok out ∧
      (m = none → out.shape = [n]) ∧ (∀ k, m = some k → out.shape = [n / k, k]) ∧ out.rows.length = n ∧
      ∀ b < n, ∃ o, out.rows[b]? = some o ∧
        o.npairs = (D1.flatten.map fun a => D2.flatten.countP fun c => bin a c = some b).sum ∧
        o.wnpairs = some (D1.flatten.map fun a =>
          (D2.flatten.map fun c => if bin a c = some b then w a c else 0).sum).sum ∧
        (0 < o.npairs → o.x = some ((D1.flatten.map fun a =>
          (D2.flatten.map fun c => if bin a c = some b then s a c else 0).sum).sum / o.npairs)) := by
  obtain ⟨out, h1, h2, h3, h4, h5⟩ := pairCount_full n bin w s md q m hm sp tree lay sm bm D1 D2 htree howner hghost
  refine ⟨out, h1, h2, h3, h4, fun b hb => ?_⟩
  obtain ⟨o, e1, e2, e3, e4, -⟩ := h5 b hb
  exact ⟨o, e1, e2, e3, e4⟩

/-- C48: two runs on catalogs that hold the same objects, however they are distributed, chunked and reduced, agree
on all counts and weighted counts, and on the mean separation of every bin that has pairs. -/
theorem pairCount_indep {A B : Type} (n : Nat) (bin : A → B → Option Nat) (w s : A → B → ℚ) (md : Mode) (q : ℚ)
    (m : Option Nat) (hm : ∀ k, m = some k → 0 < k ∧ k ∣ n) (sp sp' : Bool) (tree tree' : Tree) (lay lay' : Layout A B)
    (sm bm sm' bm' : ℚ) (D1 D1' : List (List A)) (D2 D2' : List (List B))
    (h1 : D1.flatten.Perm D1'.flatten) (h2 : D2.flatten.Perm D2'.flatten)
    (htree : tree.ranks.Perm (List.range D1.length)) (htree' : tree'.ranks.Perm (List.range D1'.length))
    (howner : ∀ a ∈ D1.flatten, lay.owner a < D1.length) (howner' : ∀ a ∈ D1'.flatten, lay'.owner a < D1'.length)
    (hghost : ∀ a ∈ D1.flatten, ∀ c ∈ D2.flatten, bin a c ≠ none → lay.owner a ∈ lay.ghosts c)
    (hghost' : ∀ a ∈ D1'.flatten, ∀ c ∈ D2'.flatten, bin a c ≠ none → lay'.owner a ∈ lay'.ghosts c) :
    ∃ out out', pairCount n bin w s (sepColumn md) (some q) m sp tree lay sm bm D1 D2 = .ok out ∧
      pairCount n bin w s (sepColumn md) (some q) m sp' tree' lay' sm' bm' D1' D2' = .ok out' ∧
      out.shape = out'.shape ∧ out.rows.length = out'.rows.length ∧
      ∀ (b : Nat) (o o' : Out), out.rows[b]? = some o → out'.rows[b]? = some o' →
        o.npairs = o'.npairs ∧ o.wnpairs = o'.wnpairs ∧ (0 < o.npairs → o.x = o'.x) := by
  obtain ⟨out, hok, hs1, hs2, hl, hrow⟩ := pairCount_eq n bin w s md q m hm sp tree lay sm bm D1 D2 htree howner hghost
  obtain ⟨out', hok', hs1', hs2', hl', hrow'⟩ :=
    pairCount_eq n bin w s md q m hm sp' tree' lay' sm' bm' D1' D2' htree' howner' hghost'
  have hsum : ∀ (b : Nat) (f : A → B → ℚ), (D1.flatten.map fun a =>
      (D2.flatten.map fun c => if bin a c = some b then f a c else 0).sum).sum = (D1'.flatten.map fun a =>
      (D2'.flatten.map fun c => if bin a c = some b then f a c else 0).sum).sum := by
    intro b f
    rw [(h1.map _).sum_eq]
    congr 1
    apply List.map_congr_left
    intro a _
    exact (h2.map _).sum_eq
  have hcount : ∀ b : Nat, (D1.flatten.map fun a => D2.flatten.countP fun c => bin a c = some b).sum =
      (D1'.flatten.map fun a => D2'.flatten.countP fun c => bin a c = some b).sum := by
    intro b
    rw [(h1.map _).sum_eq]
    congr 1
    apply List.map_congr_left
    intro a _
    exact h2.countP_eq _
  refine ⟨out, out', hok, hok', ?_, by rw [hl, hl'], ?_⟩
  · cases m with
    | none => rw [hs1 rfl, hs1' rfl]
    | some k => rw [hs2 k rfl, hs2' k rfl]
  · intro b o o' ho ho'
    have hb : b < n := by
      rw [← hl]
      exact (List.getElem?_eq_some_iff.mp ho).1
    obtain ⟨p, hp, hn, hw, hx⟩ := hrow b hb
    obtain ⟨p', hp', hn', hw', hx'⟩ := hrow' b hb
    rw [ho] at hp; rw [ho'] at hp'
    simp only [Option.some.injEq] at hp hp'
    subst hp; subst hp'
    have e : o.npairs = o'.npairs := by rw [hn, hn', hcount]
    refine ⟨e, by rw [hw, hw', hsum], fun hpos => ?_⟩
    rw [hx hpos, hx' (e ▸ hpos), hsum, e]

/-- A hypothesis of C48 that matters: were Corrfunc to report NaN averages in empty bins, the reduction would lose
the weighted counts of all chunks: one pair, in ten chunks. -/
theorem empty_nan :
    (pairCount (A := Nat) (B := Nat) 1 (fun a b => if a = b then some 0 else none) (fun _ _ => 1) (fun _ _ => 1) "ravg"
      none none true (.leaf 0) ⟨fun _ => 0, fun _ => [0]⟩ 0 1 [[7]] [[7]]).toOption.map (·.rows) =
    some [⟨none, 1, none⟩] ∧
    (pairCount (A := Nat) (B := Nat) 1 (fun a b => if a = b then some 0 else none) (fun _ _ => 1) (fun _ _ => 1) "ravg"
      none none false (.leaf 0) ⟨fun _ => 0, fun _ => [0]⟩ 0 1 [[7]] [[7]]).toOption.map (·.rows) =
    some [⟨some 1, 1, some 1⟩] := by
  constructor <;> decide +kernel

/-- Non-triviality: three ranks, chunked, two bins, a two-dimensional reshape; the decomposition sends the objects
by value. -/
example : (pairCount (A := Nat) (B := Nat) 2 (fun a b => if a < b then some (a % 2) else none) (fun a b => a * b)
      (fun a b => (b : ℚ) - a) "rpavg" (some 0) (some 2) true (.node (.leaf 2) (.node (.leaf 0) (.leaf 1)))
      ⟨fun a => a % 3, fun _ => [0, 1, 2]⟩ 0 1 [[5, 1], [], [2, 4]] [[3], [9, 4], []]) =
    .ok ⟨[1, 2], [⟨some (15/4), 4, some (2*3+2*9+2*4+4*9)⟩, ⟨some (17/4), 4, some (1*3+1*9+1*4+5*9)⟩]⟩ := by
  decide +kernel

end NBK.Pairs
