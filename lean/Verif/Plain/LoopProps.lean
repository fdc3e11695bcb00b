import Verif.Plain.Props
import Mathlib.Data.List.Forall2

/-!
# C115: the loop of the reader, and what the caller gets in any case
-/
set_option linter.unusedSimpArgs false
namespace NBK.Plain
variable {F V : Type}

/-- No count announced in the file is negative. -/
def CountsOk (p : Prims F V) (lines : List Line) : Prop :=
  ∀ l ∈ lines, ∀ n, lastInt p l.tail = .ok n → 0 ≤ n

theorem index_mem {α : Type} (l : List α) (i : Int) (x : α) (h : index l i = .ok x) : x ∈ l := by
  unfold index at h
  dsimp only at h
  generalize (if i < 0 then i + (l.length : Int) else i) = k at h
  by_cases hk : k < 0
  · rw [if_pos hk] at h
    cases h
  · rw [if_neg hk] at h
    split at h
    · rename_i y hy
      cases h
      exact List.mem_of_getElem? hy
    · cases h

/-- A turn of the loop moves forward by at least one line. -/
theorem step_forward (p : Prims F V) (lines : List Line) (hc : CountsOk p lines) (s s' : St F V) (h : step p lines s = .ok s') :
    s.cur + 1 ≤ s'.cur := by
  unfold step at h
  cases hi : index lines s.cur with
  | error e => rw [hi] at h; simp [bind, Except.bind] at h
  | ok line =>
    rw [hi] at h
    have hm := index_mem _ _ _ hi
    simp only [bind, Except.bind] at h
    cases line with
    | nil => cases h; simp
    | cons c rest =>
      have hcl := hc _ hm
      simp only [List.tail_cons] at hcl
      dsimp only at h
      split at h
      · split at h
        · cases h
        · cases h; simp
      · split at h
        · split at h
          · cases h
          · rename_i n hn
            split at h
            · cases h
            · cases h
              have := hcl n hn
              simp only
              omega
        · split at h
          · split at h
            · cases h
            · rename_i n hn
              split at h
              · cases h
              · cases h
                have := hcl n hn
                simp only
                omega
          · cases h; simp

/-- A line beyond the end is an error. -/
theorem step_beyond (p : Prims F V) (lines : List Line) (s : St F V) (h : (lines.length : Int) < s.cur) :
    step p lines s = .error .indexError := by
  have : index lines s.cur = .error .indexError := by
    unfold index
    dsimp only
    rw [if_neg (by omega), if_neg (by omega)]
    rw [List.getElem?_eq_none (by omega)]
  rw [step, this]
  rfl

theorem run_total (p : Prims F V) (lines : List Line) (hc : CountsOk p lines) (n : Nat) (s : St F V)
    (hn : 0 < n) (h : (lines.length : Int) < s.cur + n) : ∃ r, run p lines n s = some r := by
  induction n generalizing s with
  | zero => omega
  | succ n ih =>
    by_cases he : s.cur = lines.length
    · exact ⟨_, run_done p lines _ s he⟩
    · rw [run, if_neg he]
      cases hs : step p lines s with
      | error e => exact ⟨_, rfl⟩
      | ok s' =>
        have hf := step_forward p lines hc s s' hs
        have hlt : s.cur < lines.length := by
          by_cases hb : (lines.length : Int) < s.cur
          · rw [step_beyond p lines s hb] at hs; cases hs
          · omega
        exact ih s' (by omega) (by omega)

/-- C115: if no announced count is negative, the reader comes to an end after at most one turn per line and one more; more turns do not
change the result. -/
theorem read1D_ends_partial (p : Prims F V) (lines : List Line) (hc : CountsOk p lines) :
    ∃ r, ∀ fuel, lines.length + 1 ≤ fuel → read1D p fuel lines = some r := by
  cases lines with
  | nil => exact ⟨_, fun _ _ => rfl⟩
  | cons l ls =>
    cases hh : header (F := F) (V := V) l with
    | error e =>
      refine ⟨.error e, fun _ _ => ?_⟩
      simp only [read1D, hh]
    | ok m =>
      obtain ⟨r, hr⟩ := run_total p (l :: ls) hc ((l :: ls).length + 1) ⟨0, [], m⟩ (by omega) (by simp only; omega)
      have hm : ∀ fuel, (l :: ls).length + 1 ≤ fuel → run p (l :: ls) fuel ⟨0, [], m⟩ = some r := by
        intro fuel hf
        obtain ⟨k, rfl⟩ := Nat.exists_eq_add_of_le hf
        exact run_mono p (l :: ls) _ k _ r hr
      cases r with
      | error e =>
        refine ⟨.error e, fun fuel hf => ?_⟩
        simp only [read1D, hh, hm fuel hf]
      | ok s =>
        refine ⟨finish p s.data s.info, fun fuel hf => ?_⟩
        simp only [read1D, hh, hm fuel hf]

/-- A line of edges with the count -1 leaves the loop where it is: the reader never comes to an end. -/
theorem hangs (p : Prims F V) (lines : List Line) (rest : List Char) (s : St F V) (h0 : 0 ≤ s.cur)
    (hl : index lines s.cur = .ok ('#' :: rest)) (he : contains sEdges rest = true) (hn : lastInt p rest = .ok (-1)) (fuel : Nat) :
    run p lines fuel s = none := by
  have hne : s.cur ≠ lines.length := by
    intro e
    unfold index at hl
    dsimp only at hl
    rw [if_neg (by omega), if_neg (by omega), List.getElem?_eq_none (by omega)] at hl
    cases hl
  induction fuel generalizing s with
  | zero => rw [run, if_neg hne]
  | succ n ih =>
    have hsl : slice lines (s.cur + 1) (s.cur + 1 + -1) = [] := by
      unfold slice
      rw [List.drop_eq_nil_iff]
      rw [List.length_take]
      unfold clip
      rw [if_neg (by omega), if_neg (by omega)]
      omega
    have hst : step p lines s = .ok ⟨s.cur + (1 + -1), s.data, put sEdges (.edges1 []) s.info⟩ := by
      rw [step, hl]
      simp only [bind, Except.bind, ne_eq, not_true_eq_false, if_false, he, if_true, hn, hsl]
      rfl
    rw [run_step p lines n s _ hne hst]
    have e : s.cur + (1 + -1) = s.cur := by omega
    rw [e]
    exact ih _ h0 hl hne

theorem column_length (rows : List (List F)) (i : Nat) (c : List F) (h : column rows i = .ok c) :
    c.length = rows.length := by
  unfold column at h
  split at h
  · rename_i c' hc
    cases h
    have : ∀ (rows : List (List F)) (c : List F), rows.mapM (fun r => r[i]?) = some c → c.length = rows.length := by
      intro rows
      induction rows with
      | nil => intro c h; simp at h; simp [← h]
      | cons r rows ih =>
        intro c h
        rw [List.mapM_cons] at h
        cases hr : r[i]? with
        | none => simp [hr] at h
        | some x =>
          cases hm : rows.mapM (fun r => r[i]?) with
          | none => simp [hr, hm] at h
          | some xs =>
            simp [hr, hm] at h
            rw [← h]
            simp [ih xs hm]
    exact this _ _ hc
  · cases h

/-- Every column has `n` values. -/
def Full (n : Nat) (d : Dict (Col F)) : Prop :=
  ∀ q ∈ d, match q.2 with
    | .real x => x.length = n
    | .cplx re im => re.length = n ∧ im.length = n

theorem full_put (n : Nat) (k : Tok) (c : Col F) (d : Dict (Col F)) (h : Full n d) (hc : Full n [(k, c)]) : Full n (put k c d) := by
  induction d with
  | nil => exact hc
  | cons q d ih =>
    by_cases e : q.1 = k
    · rw [put, if_pos e]
      intro x hx
      rcases List.mem_cons.1 hx with rfl | hx
      · exact hc _ (by simp)
      · exact h x (by simp [hx])
    · rw [put, if_neg e]
      intro x hx
      rcases List.mem_cons.1 hx with rfl | hx
      · exact h _ (by simp)
      · exact ih (fun y hy => h y (by simp [hy])) x hx

theorem assemble_full (rows : List (List F)) (i : Nat) (names : List Tok) (d d' : Dict (Col F)) (h : Full rows.length d)
    (ha : assemble rows i names d = .ok d') : Full rows.length d' := by
  induction i, names, d using assemble.induct with
  | case1 i d => rw [assemble] at ha; cases ha; exact h
  | case2 i n d =>
    rw [assemble] at ha
    cases hc : column rows i with
    | error e => simp [hc, bind, Except.bind] at ha
    | ok c =>
      simp only [hc, bind, Except.bind] at ha
      cases ha
      apply full_put _ _ _ _ h
      intro q hq
      simp only [List.mem_cons, List.not_mem_nil, or_false] at hq
      subst hq
      exact column_length rows i c hc
  | case3 i n m rest d hcond ih =>
    rw [assemble, if_pos hcond] at ha
    cases hc : column rows i with
    | error e => simp [hc, bind, Except.bind] at ha
    | ok c =>
      cases hc2 : column rows (i + 1) with
      | error e => simp [hc, hc2, bind, Except.bind] at ha
      | ok c2 =>
        simp only [hc, hc2, bind, Except.bind] at ha
        refine ih c c2 (full_put _ _ _ _ h ?_) ha
        intro q hq
        simp only [List.mem_cons, List.not_mem_nil, or_false] at hq
        subst hq
        exact ⟨column_length rows i c hc, column_length rows (i + 1) c2 hc2⟩
  | case4 i n m rest d hcond ih =>
    rw [assemble, if_neg hcond] at ha
    cases hc : column rows i with
    | error e => simp [hc, bind, Except.bind] at ha
    | ok c =>
      simp only [hc, bind, Except.bind] at ha
      refine ih c (full_put _ _ _ _ h ?_) ha
      intro q hq
      simp only [List.mem_cons, List.not_mem_nil, or_false] at hq
      subst hq
      exact column_length rows i c hc

theorem finish_full (p : Prims F V) (rows : List (List F)) (m m' : Dict (MV F V)) (t : Table F)
    (h : finish p rows m = .ok (t, m')) : ∃ n, 0 < n ∧ t.shape = [n] ∧ Full n t.cols := by
  unfold finish at h
  cases rows with
  | nil => cases h
  | cons r rs =>
    dsimp only at h
    by_cases hall : rs.all (fun q => q.length == r.length) = true
    · rw [if_pos hall] at h
      cases hn : columnNames p r.length m with
      | error e => simp [hn, bind, Except.bind] at h
      | ok names =>
        cases hd : assemble (r :: rs) 0 names [] with
        | error e => simp [hn, hd, bind, Except.bind] at h
        | ok d =>
          simp only [hn, hd, bind, Except.bind] at h
          cases h
          exact ⟨(r :: rs).length, by simp, rfl, assemble_full _ _ _ _ _ (by intro q hq; cases hq) hd⟩
    · rw [if_neg hall] at h
      cases h

theorem read2D_full (p : Prims F V) (file : List Line) (t : Table F) (m : Dict (MV F V)) (h : read2D p file = .ok (t, m)) :
    ∃ a b, 0 < a ∧ 0 < b ∧ t.shape = [a, b] ∧ Full (a * b) t.cols := by
  unfold read2D at h
  simp only [bind, Except.bind] at h
  split at h
  · cases h
  · rename_i ab hab
    obtain ⟨nk, nmu⟩ := ab
    dsimp only at h
    split at h
    · cases h
    · rename_i flat hflat
      split at h
      · cases h
      · rename_i rows hrows
        split at h
        · cases h
        · rename_i d hd
          unfold reshape at hrows
          split at hrows
          · rename_i hpos
            dsimp only at hrows
            split at hrows
            · cases hrows
              have hf := assemble_full _ _ _ _ _ (by intro q hq; cases hq) hd
              have hl : (nk * nmu).toNat = nk.toNat * nmu.toNat := by
                obtain ⟨a, rfl⟩ := Int.eq_ofNat_of_zero_le (show 0 ≤ nk from by omega)
                obtain ⟨b, rfl⟩ := Int.eq_ofNat_of_zero_le (show 0 ≤ nmu from by omega)
                rw [← Int.natCast_mul]
                simp only [Int.toNat_natCast]
              simp only [List.length_map, List.length_range, hl] at hf
              have ht : t = ⟨[nk.toNat, nmu.toNat], d⟩ := by
                repeat' split at h
                all_goals first
                  | (cases h; rfl)
                  | cases h
              subst ht
              exact ⟨nk.toNat, nmu.toNat, by omega, by omega, rfl, hf⟩
            · cases hrows
          · cases hrows

theorem construct_shape (dims : List Tok) (edges : List (List F)) (data : Table F) (m : Dict (MV F V)) (a : Args F V)
    (h : construct dims edges data m = .ok a) : a.dims = dims ∧ a.data = data ∧ a.edges.length = dims.length ∧
      a.edges.map List.length = data.shape.map (· + 1) ∧ ∀ q ∈ a.attrs, q.1 ∉ reserved := by
  unfold construct at h
  split at h
  · cases h
  · rename_i hany
    split at h
    · cases h
    · rename_i hd
      split at h
      · cases h
      · rename_i hs
        cases h
        refine ⟨rfl, rfl, ?_, ?_, ?_⟩
        · simp only [ne_eq, Decidable.not_not] at hd
          exact hd.symm
        · simp only [ne_eq, Decidable.not_not] at hs
          dsimp only
          have hlen : data.shape.length = edges.length := by simpa using congrArg List.length hs
          apply List.ext_getElem
          · simp [hlen]
          · intro i h1 h2
            have h3 : i < data.shape.length := by simpa using h2
            have h4 : i < edges.length := by simpa using h1
            have := congrArg (fun l => l[i]?) hs
            simp [h3, h4] at this
            simp only [List.getElem_map]
            omega
        · intro q hq
          simp only [del, List.mem_filter] at hq
          intro hr
          simp only [reserved, List.mem_append, List.mem_cons, List.not_mem_nil, or_false] at hr
          rcases hr with hr | hr | hr
          · simp only [Bool.not_eq_true, List.any_eq_false] at hany
            exact absurd hr (by simpa using hany q hq.1.1)
          · simp [hr] at hq
          · simp [hr] at hq

/-- C115: whatever the file, an object that comes out has the dimensions asked for, one more edge than bins along each, at least one bin,
and every column has one value per bin. -/
theorem result_consistent (p : Prims F V) (fuel : Nat) (isList : Bool) (dims : List Tok) (lines : List Line) (kwargs : Dict V)
    (a : Args F V) (h : fromPlaintext p fuel isList dims lines kwargs = some (.ok a)) :
    isList = true ∧ a.dims = dims ∧ (dims.length = 1 ∨ dims.length = 2) ∧ a.edges.length = dims.length ∧
      a.edges.map List.length = a.data.shape.map (· + 1) ∧ (∀ n ∈ a.data.shape, 0 < n) ∧ Full a.data.shape.prod a.data.cols ∧
      ∀ q ∈ a.attrs, q.1 ∉ reserved := by
  have hb : ∀ (t : Table F) (m : Dict (MV F V)), build dims kwargs (t, m) = .ok a →
      a.dims = dims ∧ a.data = t ∧ a.edges.length = dims.length ∧ a.edges.map List.length = t.shape.map (· + 1) ∧
      ∀ q ∈ a.attrs, q.1 ∉ reserved := by
    intro t m hb
    unfold build at hb
    split at hb
    · cases hb
    · exact construct_shape _ _ _ _ _ hb
    · exact construct_shape _ _ _ _ _ hb
    · cases hb
  unfold fromPlaintext at h
  cases isList with
  | false => simp at h
  | true =>
    simp only [Bool.not_true, Bool.false_eq_true, if_false] at h
    split at h
    · rename_i h1
      cases hr : read1D p fuel lines with
      | none => simp [hr] at h
      | some r =>
        cases r with
        | error e => simp [hr, wrap, Except.bind] at h
        | ok r =>
          obtain ⟨t, m⟩ := r
          simp only [hr, Option.map_some, wrap, Except.bind, Option.some.injEq] at h
          obtain ⟨b1, b2, b3, b4, b5⟩ := hb t m h
          have hfin : ∃ n, 0 < n ∧ t.shape = [n] ∧ Full n t.cols := by
            unfold read1D at hr
            split at hr
            · cases hr
            · split at hr
              · cases hr
              · split at hr
                · cases hr
                · cases hr
                · simp only [Option.some.injEq] at hr
                  exact finish_full p _ _ _ _ hr
          obtain ⟨n, hn, hs, hf⟩ := hfin
          refine ⟨rfl, b1, Or.inl h1, b3, b2 ▸ b4, ?_, ?_, b5⟩
          · rw [b2, hs]; simpa using hn
          · rw [b2, hs]; simpa using hf
    · split at h
      · rename_i h2
        cases hr : read2D p lines with
        | error e => simp [hr, wrap, Except.bind] at h
        | ok r =>
          obtain ⟨t, m⟩ := r
          simp only [hr, wrap, Except.bind, Option.some.injEq] at h
          obtain ⟨b1, b2, b3, b4, b5⟩ := hb t m h
          obtain ⟨x, y, hx, hy, hs, hf⟩ := read2D_full p lines t m hr
          refine ⟨rfl, b1, Or.inr h2, b3, b2 ▸ b4, ?_, ?_, b5⟩
          · rw [b2, hs]
            intro n hn
            simp only [List.mem_cons, List.not_mem_nil, or_false] at hn
            rcases hn with rfl | rfl
            · exact hx
            · exact hy
          · rw [b2, hs]; simpa using hf
      · cases h

/-- The errors: a `dims` that is no list is a TypeError, an exception of the reader a ValueError, and with another number of dimensions
than one or two the names `data` and `meta` are unbound, although the message of the reader speaks of a mismatch. -/
theorem from_plaintext_errors (p : Prims F V) (fuel : Nat) (dims : List Tok) (lines : List Line) (kwargs : Dict V) :
    fromPlaintext p fuel false dims lines kwargs = some (.error .typeError) ∧
    (dims.length ≠ 1 → dims.length ≠ 2 → fromPlaintext p fuel true dims lines kwargs = some (.error .unbound)) ∧
    (∀ e, dims.length = 1 → read1D p fuel lines = some (.error e) →
      fromPlaintext p fuel true dims lines kwargs = some (.error .valueError)) ∧
    (∀ e, dims.length = 2 → read2D p lines = .error e →
      fromPlaintext p fuel true dims lines kwargs = some (.error .valueError)) ∧
    (∀ t m, dims.length = 1 → read1D p fuel lines = some (.ok (t, m)) → sEdges ∉ m.map Prod.fst →
      fromPlaintext p fuel true dims lines kwargs = some (.error .valueError)) := by
  refine ⟨by simp [fromPlaintext], ?_, ?_, ?_, ?_⟩
  · intro h1 h2
    simp [fromPlaintext, h1, h2]
  · intro e h1 hr
    simp [fromPlaintext, h1, hr, wrap, Except.bind]
  · intro e h1 hr
    simp [fromPlaintext, h1, hr, wrap, Except.bind]
  · intro t m h1 hr hm
    simp [fromPlaintext, h1, hr, wrap, Except.bind, build, get_none _ _ hm]

end NBK.Plain
