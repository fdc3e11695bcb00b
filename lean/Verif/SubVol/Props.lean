import Verif.SubVol.Model
import Mathlib.Data.List.Perm.Basic

/-! # Catalogs by sub volume -/

set_option linter.unusedSimpArgs false

namespace NBK.SubVol

variable {V M : Type}

theorem mapM_lookup {α β E : Type} [DecidableEq α] (f : α → Except E β) : ∀ (l : List α) (r : List (α × β)),
    (l.mapM fun c => do let d ← f c; pure (c, d)) = Except.ok r → ∀ a, (a ∈ l → ∃ d, f a = .ok d ∧ r.lookup a = some d) ∧ (a ∉ l → r.lookup a = none)
  | [], r, h, a => by
    simp only [List.mapM_nil, pure, Except.pure, Except.ok.injEq] at h
    subst h
    simp
  | c :: l, r, h, a => by
    rw [List.mapM_cons] at h
    cases hc : f c with
    | error e => simp [hc, bind, Except.bind] at h
    | ok d =>
      cases hl : (l.mapM fun c => do let d ← f c; pure (c, d)) with
      | error e => simp [hc, hl, bind, Except.bind, pure, Except.pure] at h hl; simp [hl] at h
      | ok r' =>
        have hr : r = (c, d) :: r' := by
          simp only [hc, bind, Except.bind, pure, Except.pure] at h hl
          rw [hl] at h
          simpa using h.symm
        have ih := mapM_lookup f l r' hl a
        subst hr
        by_cases hac : a = c
        · subst hac
          refine ⟨fun _ => ⟨d, hc, by simp⟩, fun hn => absurd List.mem_cons_self hn⟩
        · have hb : (a == c) = false := by simpa using hac
          constructor
          · intro ha
            obtain ⟨d', h1, h2⟩ := ih.1 ((List.mem_cons.1 ha).resolve_left hac)
            exact ⟨d', h1, by rw [List.lookup_cons, hb]; exact h2⟩
          · intro ha
            rw [List.lookup_cons, hb]
            exact ih.2 fun h => ha (List.mem_cons_of_mem _ h)

/-- The columns of the result: a column that was asked for is the exchange of the column of the source, with the ranks of the positions. -/
theorem column_spec (P : Nat) (domain : V → Nat) (src r : Cat V M) (position : String) (columns : Option (List String)) (pos : List (List V))
    (hpos : src.get position = .ok pos) (h : subVolumes P domain src position columns = .ok r) (c : String) (hc : c ∈ columns.getD src.columns) :
    ∃ data, src.get c = .ok data ∧ r.get c = .ok ((List.range P).map (exchange (pos.map fun l => l.map domain) data)) := by
  unfold subVolumes at h
  simp only [hpos, bind, Except.bind, pure, Except.pure] at h
  split at h
  · simp at h
  · next cols hcols =>
    simp only [Except.ok.injEq] at h
    subst h
    have hm := (mapM_lookup (fun c => (src.get c).map fun data => (List.range P).map (exchange (pos.map fun l => l.map domain) data)) _ cols (by
      rw [← hcols]
      congr 1
      funext c
      cases src.get c <;> rfl) c).1 hc
    obtain ⟨d, h1, h2⟩ := hm
    cases hg : src.get c with
    | error e => rw [hg] at h1; cases h1
    | ok data =>
      rw [hg] at h1
      simp only [Except.map, Except.ok.injEq] at h1
      refine ⟨data, rfl, ?_⟩
      simp only [Cat.get, h2, h1]

/-- A column that was not asked for is the default one, or does not exist. -/
theorem column_dropped (P : Nat) (domain : V → Nat) (src r : Cat V M) (position : String) (columns : List String)
    (h : subVolumes P domain src position (some columns) = .ok r) (c : String) (hc : c ∉ columns) :
    (∀ v, src.defaults.lookup c = some v → r.get c = .ok (r.sizes.map fun n => List.replicate n v)) ∧
      (src.defaults.lookup c = none → r.get c = .error .keyError) := by
  unfold subVolumes at h
  simp only [bind, Except.bind, pure, Except.pure] at h
  split at h
  · simp at h
  · next pos hpos =>
    split at h
    · simp at h
    · next cols hcols =>
      simp only [Except.ok.injEq] at h
      subst h
      have hm := (mapM_lookup (fun c => (src.get c).map fun data => (List.range P).map (exchange (pos.map fun l => l.map domain) data)) _ cols (by
        rw [← hcols]
        congr 1
        funext c
        cases src.get c <;> rfl) c).2 hc
      exact ⟨fun v hv => by simp only [Cat.get, hm, hv], fun hv => by simp only [Cat.get, hm, hv]⟩

/-- The exchange of rows: exchanging columns apart is exchanging the rows that hold them. -/
theorem exchange_map {α β : Type} (f : α → β) (dest : List (List Nat)) (data : List (List α)) (d : Nat) :
    exchange dest (data.map fun l => l.map f) d = (exchange dest data d).map f := by
  unfold exchange
  have hz : ∀ (n : List Nat) (l : List α), ((n.zip (l.map f)).filter fun q => q.1 == d).map Prod.snd =
      (((n.zip l).filter fun q => q.1 == d).map Prod.snd).map f := by
    intro n
    induction n with
    | nil => intro l; rfl
    | cons a n ih =>
      intro l
      cases l with
      | nil => rfl
      | cons x l =>
        simp only [List.map_cons, List.zip_cons_cons, List.filter_cons]
        by_cases h : (a == d) = true
        · simp only [h, if_true, List.map_cons, ih]
        · simp only [h]
          exact ih l
  induction dest generalizing data with
  | nil => rfl
  | cons n dest ih =>
    cases data with
    | nil => rfl
    | cons l data => rw [List.map_cons, List.zip_cons_cons, List.zip_cons_cons, List.flatMap_cons, List.flatMap_cons, ih, List.map_append, hz]

/-- What a rank gets of rows sent by the domain of their positions: the rows of the domain, in the order of the source. -/
theorem exchange_rows {α : Type} (dom : α → Nat) (data : List (List α)) (d : Nat) :
    exchange (data.map fun l => l.map dom) data d = data.flatten.filter fun x => dom x == d := by
  unfold exchange
  induction data with
  | nil => rfl
  | cons l data ih =>
    rw [List.map_cons, List.zip_cons_cons, List.flatMap_cons, ih, List.flatten_cons, List.filter_append]
    congr 1
    induction l with
    | nil => rfl
    | cons x l ih' =>
      simp only [List.map_cons, List.zip_cons_cons, List.filter_cons]
      by_cases hx : (dom x == d) = true
      · simp only [hx, if_true, List.map_cons]
        exact congrArg (x :: ·) ih'
      · simp only [hx]
        exact ih'

theorem perm_buckets {α : Type} (dom : α → Nat) (P : Nat) : ∀ (l : List α), (∀ x ∈ l, dom x < P) →
    ((List.range P).flatMap fun d => l.filter fun x => dom x == d).Perm l
  | [], _ => by simp
  | x :: l, h => by
    have ih := perm_buckets dom P l fun y hy => h y (List.mem_cons_of_mem _ hy)
    have hx : dom x < P := h x List.mem_cons_self
    have key : ∀ n, (List.range n).flatMap (fun d => (x :: l).filter fun y => dom y == d) |>.Perm
        ((if dom x < n then [x] else []) ++ (List.range n).flatMap fun d => l.filter fun y => dom y == d) := by
      intro n
      induction n with
      | zero => simp
      | succ n ihn =>
        rw [List.range_succ, List.flatMap_append, List.flatMap_append]
        simp only [List.flatMap_cons, List.flatMap_nil, List.append_nil]
        rcases Nat.lt_trichotomy (dom x) n with hlt | heq | hgt
        · have h1 : dom x < n + 1 := by omega
          have h2 : (dom x == n) = false := by simp; omega
          rw [if_pos h1, List.filter_cons_of_neg (by simp [h2])]
          rw [if_pos hlt] at ihn
          exact (ihn.append_right _).trans (by simp)
        · have h1 : dom x < n + 1 := by omega
          have h2 : ¬ dom x < n := by omega
          rw [if_pos h1, List.filter_cons_of_pos (by simp [heq])]
          rw [if_neg h2, List.nil_append] at ihn
          refine (ihn.append_right _).trans ?_
          exact List.perm_middle
        · have h1 : ¬ dom x < n + 1 := by omega
          have h2 : ¬ dom x < n := by omega
          have h3 : (dom x == n) = false := by simp; omega
          rw [if_neg h1, List.filter_cons_of_neg (by simp [h3])]
          rw [if_neg h2] at ihn
          exact ihn.append_right _
    have := key P
    rw [if_pos hx] at this
    exact this.trans (ih.cons x)

/-- A catalog whose columns are the fields of rows, the position among them: the result has the same rows, each once, on the rank of the domain its position
is in; all columns of a rank agree about the row, and the sizes are those of the columns. -/
theorem subVolumes_rows {R : Type} (P : Nat) (domain : V → Nat) (src r : Cat V M) (position : String) (columns : Option (List String))
    (rows : List (List R)) (field : String → R → V) (hf : ∀ c ∈ position :: columns.getD src.columns, src.get c = .ok (rows.map fun l => l.map (field c)))
    (hd : ∀ l ∈ rows, ∀ x ∈ l, domain (field position x) < P) (h : subVolumes P domain src position columns = .ok r) :
    ∃ new : List (List R), new.length = P ∧ new.flatten.Perm rows.flatten ∧ (∀ d (hd : d < new.length), ∀ x ∈ new[d], domain (field position x) = d) ∧
      r.sizes = new.map List.length ∧ r.attrs = src.attrs ∧ ∀ c ∈ columns.getD src.columns, r.get c = .ok (new.map fun l => l.map (field c)) := by
  have hpos := hf position List.mem_cons_self
  have hdest : ((rows.map fun l => l.map (field position)).map fun l => l.map domain) = rows.map fun l => l.map fun x => domain (field position x) := by
    simp [List.map_map, Function.comp_def]
  refine ⟨(List.range P).map fun d => rows.flatten.filter fun x => domain (field position x) == d, by simp, ?_, ?_, ?_, ?_, ?_⟩
  · rw [← List.flatMap_def]
    exact perm_buckets _ P _ fun x hx => by
      obtain ⟨l, hl, hx⟩ := List.mem_flatten.1 hx
      exact hd l hl x hx
  · intro d hd' x hx
    simp only [List.getElem_map, List.getElem_range, List.mem_filter, beq_iff_eq] at hx
    exact hx.2
  · unfold subVolumes at h
    simp only [hpos, bind, Except.bind, pure, Except.pure] at h
    split at h
    · simp at h
    · simp only [Except.ok.injEq] at h
      subst h
      show (List.range P).map _ = _
      rw [hdest, List.map_map (g := List.length)]
      congr 1
      funext d
      rw [exchange_map, exchange_rows (fun x => domain (field position x)) rows d, List.length_map]
      rfl
  · unfold subVolumes at h
    simp only [hpos, bind, Except.bind, pure, Except.pure] at h
    split at h
    · simp at h
    · simp only [Except.ok.injEq] at h
      subst h
      rfl
  · intro c hc
    obtain ⟨data, h1, h2⟩ := column_spec P domain src r position columns _ hpos h c hc
    rw [hf c (List.mem_cons_of_mem _ hc)] at h1
    cases h1
    rw [h2, hdest]
    congr 1
    rw [List.map_map]
    congr 1
    funext d
    rw [exchange_map, exchange_rows (fun x => domain (field position x)) rows d]
    rfl

/-- A source on two ranks with a mass and a weight. -/
def exCat : Cat Nat Unit where
  sizes := [3, 2]
  cols := [("Position", [[5, 12, 7], [1, 15]]), ("Mass", [[50, 120, 70], [10, 150]]), ("Weight", [[2, 3, 4], [5, 6]])]
  defaults := [("Weight", 1), ("Selection", 1)]
  attrs := ()

/-- Domains `x < 10` and `x ≥ 10`. -/
example : (subVolumes 2 (fun x => x / 10) exCat "Position" none).map (fun r => (r.sizes, r.cols)) =
    .ok ([3, 2], [("Position", [[5, 7, 1], [12, 15]]), ("Mass", [[50, 70, 10], [120, 150]]), ("Weight", [[2, 4, 5], [3, 6]]),
      ("Selection", [[1, 1, 1], [1, 1]])]) := by rfl

/-- With a list of columns the weights of the source are silently replaced by ones. -/
theorem weight_lost : ∃ (src r : Cat Nat Unit), src.get "Weight" = .ok [[2, 3, 4], [5, 6]] ∧
    subVolumes 2 (fun x => x / 10) src "Position" (some ["Position"]) = .ok r ∧ r.get "Weight" = .ok [[1, 1, 1], [1, 1]] :=
  ⟨exCat, _, rfl, rfl, rfl⟩

end NBK.SubVol
