import Verif.RngObj.LoopProps

/-! # Calls on MPIRandomState objects: independence of the ranks, errors, programs -/
set_option linter.unusedSimpArgs false
namespace NBK.RngObj
variable {σ χ α β : Type}

abbrev Row (α : Type) := List (List α)
abbrev Gen (σ χ α β : Type) := Method χ → σ → List (Row α) → Except Err (List β)

/-- Contract of numpy's samplers: one number per row; what is drawn for the first rows does not depend on the rows that follow, and if all rows succeed the first rows succeed. -/
structure Sequential (g : σ → List (Row α) → Except Err (List β)) : Prop where
  size : Sized g
  pre : ∀ s xs ys out, g s (xs ++ ys) = .ok out → g s xs = .ok (out.take xs.length)

/-- The arguments of all ranks give as many rows of items as the ranks have; `D` are the rows. -/
def Rows (o : Obj σ) (k : Call χ α) (D : List (List (Row α))) : Prop :=
  List.zipWith (fun n a => prepare n k.item a) o.sizes k.args = D.map (fun d => .ok (k.item, d)) ∧ D.map List.length = o.sizes

/-- The rows that a rank works on: from the start of its first chunk to its end. -/
def window (o : Obj σ) (D : List (List (Row α))) (r : Nat) : List (Row α) :=
  (D.flatten.take (o.start r + o.sizes.getD r 0)).drop (o.start r / o.c * o.c)

theorem start_eq' (o : Obj σ) (D : List (List (Row α))) (h : D.map List.length = o.sizes) (r : Nat) : o.start r = Rng.start D r := by
  unfold Obj.start Rng.start
  rw [← h, List.map_take]

theorem call_eq (gen : Gen σ χ α β) (o : Obj σ) (k : Call χ α) (D : List (List (Row α))) (h : Rows o k D) :
    o.call gen k = ({ o with drawn := o.drawn + o.nchunks }, D.mapIdx fun r _ => toRes
      ((loop o.c ((List.range o.nchunks).map fun i => o.seedOf (o.drawn + i)) (gen k.method) (o.start r / o.c) (window o D r)).map
        fun out => out.drop (o.start r - o.start r / o.c * o.c))) := by
  obtain ⟨h1, h2⟩ := h
  unfold Obj.call
  dsimp only
  rw [h1, if_neg (by simp [failed]), List.map_map]
  rw [if_neg (by simp [rowsOf])]
  have e2 : (List.map (rowsOf ∘ fun d => Except.ok (k.item, d)) D).mapIdx
      (fun r q => (q.2, Rng.skip o.c (o.start r))) = D.mapIdx fun r d => (d, Rng.skip o.c (o.start r)) := by
    apply List.ext_getElem?
    intro r
    simp only [List.getElem?_mapIdx, List.getElem?_map]
    cases D[r]? <;> rfl
  have hskip : ∀ r, Rng.skip o.c (o.start r) ≤ o.start r := fun r => by unfold Rng.skip; omega
  rw [e2, FrontPad.frontPad_ok]
  · dsimp only
    congr 1
    apply List.ext_getElem?
    intro r
    simp only [List.getElem?_mapIdx, List.mapIdx_mapIdx]
    cases hr : D[r]? with
    | none => rfl
    | some d =>
      simp only [Option.map_some, Function.comp_def, Rng.firstIchunk, Rng.skip]
      congr 4
      have hse := start_eq' o D h2 r
      have hst := Rng.start_le D r
      have hwin := NBK.Comm.rank_window D r d hr
      rw [← Rng.start_eq, ← hse] at hwin
      rw [← hse] at hst
      have hk : o.start r / o.c * o.c ≤ o.start r := Nat.div_mul_le_self _ _
      have hsz : o.sizes.getD r 0 = d.length := by
        rw [← h2, List.getD_eq_getElem?_getD, List.getElem?_map, hr]; rfl
      rw [show (fun r d => (d, o.start r - o.start r / o.c * o.c)) = (fun r (d : List (Row α)) => (d, (fun r => o.start r - o.start r / o.c * o.c) r)) from rfl,
        Rng.before_eq D (fun r => o.start r - o.start r / o.c * o.c) r, ← hse]
      unfold FrontPad.lastK window
      rw [hsz, List.take_add, List.drop_append, List.length_take, Nat.min_eq_left hst, hwin.symm, show o.start r / o.c * o.c - o.start r = 0 by omega, List.drop_zero]
      congr 2
      omega
  · intro r p hp
    simp only [List.getElem?_mapIdx, Option.map_eq_some_iff] at hp
    obtain ⟨d, _, rfl⟩ := hp
    rw [Rng.before_eq D (fun r => Rng.skip o.c (o.start r)), ← start_eq' o D h2]
    have h3 := Rng.start_le D r
    have := hskip r
    rw [← start_eq' o D h2] at h3
    simp only [List.length_take]; omega

theorem total_eq (o : Obj σ) (D : List (List (Row α))) (h : D.map List.length = o.sizes) : D.flatten.length = o.sizes.sum := by
  rw [← h, List.length_flatten]

theorem end_le (o : Obj σ) (r : Nat) : o.start r + o.sizes.getD r 0 ≤ o.sizes.sum := by
  unfold Obj.start
  have h := List.take_append_drop r o.sizes
  conv_rhs => rw [← h, List.sum_append]
  have : o.sizes.getD r 0 ≤ (o.sizes.drop r).sum := by
    rw [List.getD_eq_getElem?_getD]
    cases hd : o.sizes[r]? with
    | none => exact Nat.zero_le _
    | some x =>
      rw [← List.head?_drop] at hd
      cases hd' : o.sizes.drop r with
      | nil => rw [hd'] at hd; cases hd
      | cons y l =>
        rw [hd'] at hd
        cases hd
        simp
  omega

theorem chunk_window (o : Obj σ) (D : List (List (Row α))) (r j : Nat) :
    chunk o.c (window o D r) j = chunk o.c (D.flatten.take (o.start r + o.sizes.getD r 0)) (o.start r / o.c + j) := by
  unfold chunk window
  rw [List.drop_drop, Nat.add_mul]

theorem window_length (o : Obj σ) (D : List (List (Row α))) (h : D.map List.length = o.sizes) (r : Nat) :
    (window o D r).length = o.start r + o.sizes.getD r 0 - o.start r / o.c * o.c := by
  unfold window
  rw [List.length_drop, List.length_take, total_eq o D h, Nat.min_eq_left (end_le o r)]

theorem seeds_cover (o : Obj σ) (hc : 0 < o.c) (j : Nat) (hj : j * o.c < o.sizes.sum) :
    ((List.range o.nchunks).map fun i => o.seedOf (o.drawn + i))[j]? = some (o.seedOf (o.drawn + j)) := by
  have : j < o.nchunks := by
    unfold Obj.nchunks Rng.nchunks
    rw [Nat.lt_div_iff_mul_lt hc]
    have : o.c * j = j * o.c := Nat.mul_comm _ _
    omega
  rw [List.getElem?_map, List.getElem?_range this]; rfl

/-- **Errors.** A rank raises exactly if the sampler raises on one of the chunks that it works on, cut at the end of the rank. -/
theorem rank_raises_iff (gen : Gen σ χ α β) (o : Obj σ) (hc : 0 < o.c) (k : Call χ α) (hg : Sequential (gen k.method)) (D : List (List (Row α))) (h : Rows o k D)
    (r : Nat) (hr : r < o.sizes.length) :
    (∃ e, (o.call gen k).2[r]? = some (.error e))
      ↔ ∃ j, o.start r / o.c ≤ j ∧ j * o.c < o.start r + o.sizes.getD r 0
          ∧ ∃ e, gen k.method (o.seedOf (o.drawn + j)) (chunk o.c (D.flatten.take (o.start r + o.sizes.getD r 0)) j) = .error e := by
  have hlen : r < D.length := by rw [← List.length_map (f := List.length), h.2]; exact hr
  rw [call_eq gen o k D h]
  dsimp only
  rw [List.getElem?_mapIdx, List.getElem?_eq_getElem hlen, Option.map_some]
  have hw := window_length o D h.2 r
  have he := end_le o r
  have hs : ∀ j, j * o.c < (window o D r).length → ((List.range o.nchunks).map fun i => o.seedOf (o.drawn + i))[o.start r / o.c + j]? = some (o.seedOf (o.drawn + (o.start r / o.c + j))) := by
    intro j hj
    refine seeds_cover o hc _ ?_
    rw [Nat.add_mul]; omega
  constructor
  · rintro ⟨e, h1⟩
    by_contra hno
    push Not at hno
    obtain ⟨tot, ht, _⟩ := loop_ok o.c hc _ (fun i => o.seedOf (o.drawn + i)) (gen k.method) hg.size (o.start r / o.c) (window o D r) hs (fun j hj => by
      rw [chunk_window]
      have := hno (o.start r / o.c + j) (by omega) (by rw [Nat.add_mul]; omega)
      cases hx : gen k.method (o.seedOf (o.drawn + (o.start r / o.c + j))) (chunk o.c (D.flatten.take (o.start r + o.sizes.getD r 0)) (o.start r / o.c + j)) with
      | ok out => exact ⟨out, rfl⟩
      | error e => exact absurd hx (this e))
    rw [ht] at h1
    cases h1
  · rintro ⟨j, h1, h2, e, h3⟩
    obtain ⟨e', he'⟩ := loop_error o.c hc _ (fun i => o.seedOf (o.drawn + i)) (gen k.method) (o.start r / o.c) (window o D r) hs (j - o.start r / o.c)
      (by rw [hw, Nat.sub_mul]; have := Nat.mul_le_mul_right o.c h1; omega) e (by rw [chunk_window, show o.start r / o.c + (j - o.start r / o.c) = j by omega]; exact h3)
    rw [he']
    exact ⟨e', rfl⟩

theorem chunk_prefix (c : Nat) (G : List (Row α)) (m j : Nat) : ∃ ys, chunk c G j = chunk c (G.take m) j ++ ys := by
  refine ⟨(chunk c G j).drop (chunk c (G.take m) j).length, ?_⟩
  have e : chunk c (G.take m) j = (chunk c G j).take (m - j * c) := by
    unfold chunk
    rw [List.drop_take, List.take_take, List.take_take, Nat.min_comm]
  rw [e, List.length_take]
  conv_lhs => rw [← List.take_append_drop (m - j * c) (chunk c G j)]
  congr 1
  rcases Nat.le_total (m - j * c) (chunk c G j).length with h | h
  · rw [Nat.min_eq_left h]
  · rw [Nat.min_eq_right h, List.drop_length, List.drop_eq_nil_of_le h]

theorem div_add_chunk {c : Nat} (hc : 0 < c) (f x : Nat) : (f * c + x) / c = f + x / c := by
  rw [Nat.mul_comm, Nat.mul_add_div hc]

theorem mod_add_chunk (c f x : Nat) : (f * c + x) % c = x % c := by
  rw [Nat.mul_comm, Nat.mul_add_mod]

def Res.get {β : Type} : Res β → List β
  | .ok l => l
  | _ => []

/-- **Values.** If the sampler succeeds on the whole chunks of all rows, every rank gets its numbers, and number `i` of all ranks together is number `i mod chunksize` of its chunk. -/
theorem call_values (gen : Gen σ χ α β) (o : Obj σ) (hc : 0 < o.c) (k : Call χ α) (hg : Sequential (gen k.method)) (D : List (List (Row α))) (h : Rows o k D)
    (hok : ∀ j, j * o.c < o.sizes.sum → ∃ out, gen k.method (o.seedOf (o.drawn + j)) (chunk o.c D.flatten j) = .ok out) :
    ∃ outs : List (List β), (o.call gen k).2 = outs.map Res.ok ∧ outs.map List.length = o.sizes
      ∧ ∀ i, i < o.sizes.sum → ∃ out, gen k.method (o.seedOf (o.drawn + i / o.c)) (chunk o.c D.flatten (i / o.c)) = .ok out ∧ outs.flatten[i]? = out[i % o.c]? := by
  have key : ∀ r, r < o.sizes.length → ∃ l : List β, (o.call gen k).2[r]? = some (.ok l) ∧ l.length = o.sizes.getD r 0
      ∧ ∀ i, i < o.sizes.getD r 0 → ∃ out, gen k.method (o.seedOf (o.drawn + (o.start r + i) / o.c)) (chunk o.c D.flatten ((o.start r + i) / o.c)) = .ok out
          ∧ l[i]? = out[(o.start r + i) % o.c]? := by
    intro r hr
    have hlen : r < D.length := by rw [← List.length_map (f := List.length), h.2]; exact hr
    have hw := window_length o D h.2 r
    have he := end_le o r
    have hk : o.start r / o.c * o.c ≤ o.start r := Nat.div_mul_le_self _ _
    have hs : ∀ j, j * o.c < (window o D r).length → ((List.range o.nchunks).map fun i => o.seedOf (o.drawn + i))[o.start r / o.c + j]? = some (o.seedOf (o.drawn + (o.start r / o.c + j))) := by
      intro j hj
      refine seeds_cover o hc _ ?_
      rw [Nat.add_mul]; omega
    have hch : ∀ j, j * o.c < (window o D r).length → ∃ out, gen k.method (o.seedOf (o.drawn + (o.start r / o.c + j))) (chunk o.c D.flatten (o.start r / o.c + j)) = .ok out
        ∧ gen k.method (o.seedOf (o.drawn + (o.start r / o.c + j))) (chunk o.c (window o D r) j) = .ok (out.take (chunk o.c (window o D r) j).length) := by
      intro j hj
      obtain ⟨out, ho⟩ := hok (o.start r / o.c + j) (by rw [Nat.add_mul]; omega)
      refine ⟨out, ho, ?_⟩
      rw [chunk_window]
      obtain ⟨ys, hy⟩ := chunk_prefix o.c D.flatten (o.start r + o.sizes.getD r 0) (o.start r / o.c + j)
      rw [hy] at ho
      exact hg.pre _ _ _ _ ho
    obtain ⟨tot, ht, hl, hv⟩ := loop_ok o.c hc _ (fun i => o.seedOf (o.drawn + i)) (gen k.method) hg.size (o.start r / o.c) (window o D r) hs
      (fun j hj => (hch j hj).elim fun out ho => ⟨_, ho.2⟩)
    refine ⟨tot.drop (o.start r - o.start r / o.c * o.c), ?_, ?_, fun i hi => ?_⟩
    · rw [call_eq gen o k D h]
      dsimp only
      rw [List.getElem?_mapIdx, List.getElem?_eq_getElem hlen, Option.map_some, ht]
      rfl
    · rw [List.length_drop, hl, hw]; omega
    · have hi' : o.start r - o.start r / o.c * o.c + i < (window o D r).length := by rw [hw]; omega
      obtain ⟨o1, h1, h2⟩ := hv _ hi'
      have hdm : o.start r / o.c * o.c + (o.start r - o.start r / o.c * o.c + i) = o.start r + i := by omega
      have ed : o.start r / o.c + (o.start r - o.start r / o.c * o.c + i) / o.c = (o.start r + i) / o.c := by
        rw [← hdm]; exact (div_add_chunk hc _ _).symm
      have em : (o.start r - o.start r / o.c * o.c + i) % o.c = (o.start r + i) % o.c := by
        conv_rhs => rw [← hdm]
        exact (mod_add_chunk _ _ _).symm
      have hjl : (o.start r - o.start r / o.c * o.c + i) / o.c * o.c < (window o D r).length :=
        Nat.lt_of_le_of_lt (Nat.div_mul_le_self _ _) hi'
      obtain ⟨out, ho1, ho2⟩ := hch _ hjl
      rw [ho2] at h1
      cases h1
      rw [ed] at ho1
      refine ⟨out, ho1, ?_⟩
      rw [List.getElem?_drop, h2, em, List.getElem?_take, if_pos]
      unfold chunk
      rw [List.length_take, List.length_drop]
      have := Nat.mod_lt (o.start r + i) hc
      have h5 : (o.start r - o.start r / o.c * o.c + i) / o.c * o.c + (o.start r + i) % o.c = o.start r - o.start r / o.c * o.c + i := by
        rw [← em, Nat.mul_comm]; exact Nat.div_add_mod _ _
      omega
  have hcl : (o.call gen k).2.length = o.sizes.length := by
    rw [call_eq gen o k D h]
    dsimp only
    rw [List.length_mapIdx, ← h.2, List.length_map]
  let outs : List (List β) := (o.call gen k).2.map Res.get
  have houts : ∀ (r : Nat) (l : List β), (o.call gen k).2[r]? = some (.ok l) → outs[r]? = some l := by
    intro r l hr
    show ((o.call gen k).2.map _)[r]? = _
    rw [List.getElem?_map, hr]; rfl
  have hsz : outs.map List.length = o.sizes := by
    apply List.ext_getElem?
    intro r
    by_cases hr : r < o.sizes.length
    · obtain ⟨l, h1, h2, _⟩ := key r hr
      rw [List.getElem?_map, houts r l h1, List.getElem?_eq_getElem hr]
      rw [List.getD_eq_getElem?_getD, List.getElem?_eq_getElem hr] at h2
      simpa using h2
    · rw [List.getElem?_eq_none (by simp only [outs, List.length_map, hcl]; omega), List.getElem?_eq_none (by omega)]
  refine ⟨outs, ?_, hsz, fun i hi => ?_⟩
  · apply List.ext_getElem?
    intro r
    by_cases hr : r < o.sizes.length
    · obtain ⟨l, h1, _⟩ := key r hr
      rw [h1, List.getElem?_map, houts r l h1]; rfl
    · rw [List.getElem?_eq_none (by omega), List.getElem?_eq_none (by simp only [outs, List.length_map, hcl]; omega)]
  · have loc : ∀ (L : List (List β)) (i : Nat), i < (L.map List.length).sum →
        ∃ r l, L[r]? = some l ∧ ((L.map List.length).take r).sum ≤ i ∧ i - ((L.map List.length).take r).sum < l.length
          ∧ L.flatten[i]? = l[i - ((L.map List.length).take r).sum]? := by
      intro L
      induction L with
      | nil => intro i hi; simp at hi
      | cons x L ih =>
        intro i hi
        by_cases hx : i < x.length
        · exact ⟨0, x, rfl, by simp, by simpa using hx, by simp [List.getElem?_append_left hx]⟩
        · obtain ⟨r, l, h1, h2, h3, h4⟩ := ih (i - x.length) (by simp at hi; omega)
          refine ⟨r + 1, l, h1, ?_, ?_, ?_⟩
          · simp only [List.map_cons, List.take_succ_cons, List.sum_cons]; omega
          · simp only [List.map_cons, List.take_succ_cons, List.sum_cons]; omega
          · simp only [List.map_cons, List.take_succ_cons, List.sum_cons, List.flatten_cons]
            rw [List.getElem?_append_right (by omega), h4]
            congr 1; omega
    obtain ⟨r, l, h1, h2, h3, h4⟩ := loc outs i (by rw [hsz]; exact hi)
    rw [hsz] at h2 h3 h4
    have hr : r < o.sizes.length := by
      rw [← hsz, List.length_map]; exact (List.getElem?_eq_some_iff.1 h1).1
    obtain ⟨l', k1, k2, k3⟩ := key r hr
    have : l' = l := Option.some.inj ((houts r l' k1).symm.trans h1)
    subst this
    obtain ⟨out, q1, q2⟩ := k3 (i - o.start r) (by rw [← k2]; exact h3)
    have e : o.start r + (i - o.start r) = i := by unfold Obj.start; omega
    rw [e] at q1 q2
    exact ⟨out, q1, by rw [h4]; exact q2⟩

end NBK.RngObj
