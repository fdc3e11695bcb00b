import Verif.Rng.Lemmas

/-!
# C02: random numbers do not depend on the number of ranks

`D` is the list of the ranks' argument rows, one row per requested random item, `D.flatten` the global
sequence of rows.  `sampler seed rows` is a fresh `RandomState(seed)` asked for `rows.length` items.
-/
namespace NBK.Rng

/-- Specification of the global random sequence: item `i` is item `i % c` of the sample drawn with the
`i / c`-th seed for the `i / c`-th chunk of `c` rows.  Ranks do not occur. -/
def stream {ι β σ : Type} (c : Nat) (seedOf : Nat → σ) (sampler : σ → List ι → List β)
    (rows : List ι) (i : Nat) : Option β :=
  (sampler (seedOf (i / c)) ((rows.drop (i / c * c)).take c))[i % c]?

/-- A generator whose first `n` items do not depend on how many more items are requested
(true of numpy's `uniform`, `normal`, `poisson`). -/
structure Sequential {ι β σ : Type} (sampler : σ → List ι → List β) : Prop where
  length : ∀ s rows, (sampler s rows).length = rows.length
  pre : ∀ s rows n, sampler s (rows.take n) = (sampler s rows).take n

/-- C02: for every distribution `D` of the rows over ranks the call succeeds on all ranks, every rank gets as
many items as it has rows, and the concatenation over ranks is the rank-independent `stream`. -/
theorem call_stream {ι β σ : Type} (c : Nat) (hc : 0 < c) (seedOf : Nat → σ)
    (sampler : σ → List ι → List β) (hs : Sequential sampler) (D : List (List ι)) :
    ∃ outs, call c seedOf sampler D = .ok outs
      ∧ outs.map List.length = D.map List.length
      ∧ ∀ i, i < D.flatten.length → outs.flatten[i]? = stream c seedOf sampler D.flatten i := by
  refine ⟨_, call_eq hc hs.length hs.pre D, ?_, ?_⟩
  · apply List.ext_getElem?
    intro r
    simp only [List.getElem?_map, List.getElem?_mapIdx]
    cases hr : D[r]? with
    | none => simp
    | some d =>
      have hwin := NBK.Comm.rank_window D r d hr
      have := congrArg List.length hwin
      rw [← start_eq, start_eq_sum] at this
      simp only [Option.map_some, List.length_take, List.length_drop, serial_length hc hs.length] at this ⊢
      rw [← this]
  · intro i hi
    rw [NBK.Comm.windows_flatten, List.getElem?_take_of_lt (by simpa [List.length_flatten] using hi)]
    rw [serial_get hc hs.length _ _ _ hi, Nat.zero_add]
    rfl

/-- C02, comparison form: any two distributions of the same global rows give the same global sequence. -/
theorem call_rank_invariant {ι β σ : Type} (c : Nat) (hc : 0 < c) (seedOf : Nat → σ)
    (sampler : σ → List ι → List β) (hs : Sequential sampler) (D₁ D₂ : List (List ι))
    (h : D₁.flatten = D₂.flatten) :
    ∃ o₁ o₂, call c seedOf sampler D₁ = .ok o₁ ∧ call c seedOf sampler D₂ = .ok o₂
      ∧ o₁.flatten = o₂.flatten := by
  obtain ⟨o₁, h₁, l₁, s₁⟩ := call_stream c hc seedOf sampler hs D₁
  obtain ⟨o₂, h₂, l₂, s₂⟩ := call_stream c hc seedOf sampler hs D₂
  refine ⟨o₁, o₂, h₁, h₂, ?_⟩
  have e₁ : o₁.flatten.length = D₁.flatten.length := by simp [List.length_flatten, l₁]
  have e₂ : o₂.flatten.length = D₂.flatten.length := by simp [List.length_flatten, l₂]
  apply List.ext_getElem?
  intro i
  by_cases hi : i < D₁.flatten.length
  · rw [s₁ i hi, s₂ i (h ▸ hi), h]
  · rw [List.getElem?_eq_none (by omega), List.getElem?_eq_none (by rw [e₂, ← h]; omega)]

/-- A toy sequential generator: item `j` for row `x` is `(seed, j, x)`. -/
def toy (s : Nat) (rows : List Nat) : List (Nat × Nat × Nat) := rows.mapIdx fun j x => (s, j, x)

/-- Non-vacuity: `toy` is sequential and depends on seed, position and row. -/
example : Sequential toy := by
  constructor
  · intro s rows; simp [toy]
  · intro s rows n
    apply List.ext_getElem?
    intro i
    simp only [toy, List.getElem?_mapIdx, List.getElem?_take]
    split <;> simp

/-- The hypothesis cannot be dropped: with a sampler whose items depend on how many are requested
(e.g. a draw without replacement that shuffles at the end) the result does depend on the distribution. -/
theorem call_not_invariant_without_prefix :
    ∃ sampler : Nat → List Nat → List Nat, (∀ s rows, (sampler s rows).length = rows.length) ∧
      ∃ (D₁ D₂ : List (List Nat)) (o₁ o₂ : List (List Nat)), D₁.flatten = D₂.flatten
        ∧ call 4 id sampler D₁ = .ok o₁ ∧ call 4 id sampler D₂ = .ok o₂ ∧ o₁.flatten ≠ o₂.flatten := by
  refine ⟨fun _ rows => rows.reverse, by simp, [[1, 2]], [[1], [2]], [[2, 1]], [[1], [1]], by rfl, ?_, ?_, by decide⟩
  · simp [call, NBK.FrontPad.frontPad, NBK.FrontPad.torecv, NBK.FrontPad.lens, NBK.FrontPad.torecvEntry,
      NBK.FrontPad.offset, skip, start, firstIchunk, loop, nchunks, NBK.FrontPad.lastItems, Except.map, bind, Except.bind, pure, Except.pure]
  · simp [call, NBK.FrontPad.frontPad, NBK.FrontPad.torecv, NBK.FrontPad.lens, NBK.FrontPad.torecvEntry,
      NBK.FrontPad.offset, skip, start, firstIchunk, loop, nchunks, NBK.FrontPad.lastItems, Except.map, bind, Except.bind, pure, Except.pure]

end NBK.Rng
