import Verif.Binned.AverageProps

/-!
# Round trips (C43), histories of re-binning (C46), masks (C47) and coordinates (C58)
-/
set_option linter.unusedSimpArgs false
namespace NBK.Binned
variable {A : Type}

/-! ## Round trips -/

/-- The mask marks exactly the bins where a variable is not finite. -/
def MaskExact (b : BS A) : Prop :=
  ∀ o < b.shape.prod, (b.mask[o]? = some true ↔ ∃ c ∈ b.data, ∃ v, c.vals[o]? = some v ∧ v.isFinite = false)

/-- Every bin where a variable is not finite is marked. -/
def MaskSound (b : BS A) : Prop :=
  ∀ o < b.shape.prod, ∀ c ∈ b.data, ∀ v, c.vals[o]? = some v → v.isFinite = false → b.mask[o]? = some true

theorem MaskExact.sound {b : BS A} (h : MaskExact b) : MaskSound b := fun o ho c hc v hv hf => (h o ho).mpr ⟨c, hc, v, hv, hf⟩

theorem maskOf_iff (n : Nat) (data : List Col) (hs : ∀ c ∈ data, c.vals.length = n) (o : Nat) (ho : o < n) :
    (maskOf n data)[o]? = some true ↔ ∃ c ∈ data, ∃ v, c.vals[o]? = some v ∧ v.isFinite = false := by
  unfold maskOf
  rw [List.getElem?_map, List.getElem?_range ho, Option.map_some, Option.some_inj, List.any_eq_true]
  constructor
  · rintro ⟨c, hc, h⟩
    have hl : o < c.vals.length := by rw [hs c hc]; exact ho
    rw [List.getD_eq_getElem _ _ hl] at h
    exact ⟨c, hc, _, List.getElem?_eq_getElem hl, by simpa using h⟩
  · rintro ⟨c, hc, v, hv, hf⟩
    refine ⟨c, hc, ?_⟩
    rw [List.getD_eq_getElem?_getD, hv]
    simp [hf]

theorem maskExact_eq (b : BS A) (hw : WF b) : MaskExact b ↔ b.mask = maskOf b.shape.prod b.data := by
  constructor
  · intro h
    apply List.ext_getElem
    · rw [hw.msize]; simp [maskOf]
    · intro o g1 g2
      have ho : o < b.shape.prod := by rw [← hw.msize]; exact g1
      have e1 := h o ho
      rw [← maskOf_iff _ _ hw.size o ho, List.getElem?_eq_getElem g1, List.getElem?_eq_getElem g2, Option.some_inj, Option.some_inj] at e1
      exact Bool.eq_iff_iff.mpr e1
  · intro h o ho
    rw [h]
    exact maskOf_iff _ _ hw.size o ho

theorem init_ok (b : BS A) (hw : WF b) (fts : List String) (attrs : A) :
    init b.dims b.edges b.shape b.data fts (some (b.coords.map some)) attrs =
      .ok { b with fts := fts, attrs := attrs, mask := maskOf b.shape.prod b.data } := by
  unfold init
  have hsh : b.shape = b.edges.map fun e => e.length - 1 := by
    apply List.ext_getElem
    · rw [shape_length, hw.lcoords, List.length_map, hw.ledges]
    · intro i g1 g2
      have h1 : i < b.coords.length := by rw [← shape_length]; exact g1
      have h2 : i < b.edges.length := by simpa using g2
      have := hw.bins i _ _ (List.getElem?_eq_getElem h2) (List.getElem?_eq_getElem h1)
      simp only [BS.shape, List.getElem_map]
      omega
  rw [if_neg (by rw [hw.ledges]; simp), if_neg (by simp [hsh])]
  have hcs : (b.edges.mapIdx fun i e => ((some (b.coords.map some)).bind fun l => (l[i]?).join).getD (centers e)) = b.coords := by
    apply List.ext_getElem
    · simp [hw.ledges, hw.lcoords]
    · intro i g1 g2
      simp [List.getElem?_eq_getElem g2]
  dsimp only
  rw [hcs, if_neg (by simp [BS.shape])]

/-- What the round trip returns. -/
theorem roundtrip_eq (b : BS A) (hw : WF b) : fromState (getstate b) = .ok { b with fts := [], mask := maskOf b.shape.prod b.data } :=
  init_ok b hw [] b.attrs

/-- C43. The round trip through `from_state` is the identity exactly if no variable is to be summed and the mask is exact. Missing: it loses the
names of the variables to sum (`roundtrip_sums`). -/
theorem roundtrip_partial (b : BS A) (hw : WF b) : fromState (getstate b) = .ok b ↔ b.fts = [] ∧ MaskExact b := by
  rw [roundtrip_eq b hw, maskExact_eq b hw]
  constructor
  · intro h
    have h' := Except.ok.inj h
    exact ⟨(congrArg BS.fts h').symm, (congrArg BS.mask h').symm⟩
  · rintro ⟨h1, h2⟩
    rw [← h1, ← h2]

/-- C43. The round trip through `from_json` is the identity if no variable is to be summed, the mask is exact and no metadata has the name of
a parameter. Missing: see `json_attr_error` and `json_attr_consumed`. -/
theorem json_partial {V : Type} (asList : V → Option (List String)) (b : BS (List (String × V))) (hw : WF b) (hf : b.fts = []) (hm : MaskExact b)
    (ha : ∀ p ∈ b.attrs, p.1 ∉ initParams) : fromJson asList (getstate b) = .ok b := by
  have hk : kwFts asList b.attrs = .ok [] := by
    unfold kwFts
    rw [if_neg, List.find?_eq_none.mpr]
    · intro p hp
      have := ha p hp
      simp [initParams] at this
      simp [this]
    · rw [List.any_eq_true]
      rintro ⟨p, hp, h⟩
      have := ha p hp
      simp [initParams] at this h
      rcases h with h | h | h | h | h <;> simp_all
  have hfil : b.attrs.filter (fun p => p.1 ≠ "fields_to_sum") = b.attrs := by
    rw [List.filter_eq_self]
    intro p hp
    have := ha p hp
    simp [initParams] at this
    simp [this]
  unfold fromJson
  simp only [getstate, hk, bind, Except.bind, hfil]
  rw [init_ok b hw, ← (maskExact_eq b hw).mp hm, ← hf]

/-- Two bins with a number of modes that is to be summed, as returned by `FFTPower`. -/
def modes : BS Unit := ⟨["k"], [[0, 1, 2]], [[1/2, 3/2]], [⟨"modes", true, [.fin 3, .fin 5]⟩], [false, false], (), ["modes"]⟩

/-- The negation of C43: `modes.reindex("k", 2)` has 8 modes, but 4 modes after a round trip. -/
theorem roundtrip_sums : ∃ b', fromState (getstate modes) = .ok b' ∧
    (reindexCall true ⟨[]⟩ modes "k" 2 .none true none).2.2 =
      .ok ⟨["k"], [[0, 2]], [[1]], [⟨"modes", true, [.fin 8]⟩], [false], (), ["modes"]⟩ ∧
    (reindexCall true ⟨[]⟩ b' "k" 2 .none true none).2.2 =
      .ok ⟨["k"], [[0, 2]], [[1]], [⟨"modes", true, [.fin 4]⟩], [false], (), []⟩ := by
  refine ⟨⟨["k"], [[0, 1, 2]], [[1/2, 3/2]], [⟨"modes", true, [.fin 3, .fin 5]⟩], [false, false], (), []⟩, ?_, ?_, ?_⟩ <;> decide +kernel

/-- The negation of C43: metadata with the name of a parameter cannot be read back, for any statistic. -/
theorem json_attr_error {V : Type} (asList : V → Option (List String)) (b : BS (List (String × V)))
    (h : ∃ p ∈ b.attrs, p.1 ∈ ["self", "dims", "edges", "data", "coords"]) : fromJson asList (getstate b) = .error .typeError := by
  have hk : kwFts asList b.attrs = .error .typeError := by
    unfold kwFts
    rw [if_pos]
    rw [List.any_eq_true]
    obtain ⟨p, hp, hm⟩ := h
    exact ⟨p, hp, by simpa using hm⟩
  unfold fromJson
  simp only [getstate, hk, bind, Except.bind]

/-- The negation of C43: metadata called `fields_to_sum` disappear and turn averages into sums. -/
theorem json_attr_consumed :
    let b : BS (List (String × List String)) := ⟨["k"], [[0, 1, 2]], [[1/2, 3/2]], [⟨"power", false, [.fin 3, .fin 5]⟩], [false, false],
      [("fields_to_sum", ["power"])], []⟩
    fromJson some (getstate b) = .ok ⟨["k"], [[0, 1, 2]], [[1/2, 3/2]], [⟨"power", false, [.fin 3, .fin 5]⟩], [false, false], [], ["power"]⟩ := by
  decide +kernel

/-- `grid` satisfies the conditions of the round trips. -/
example : fromState (getstate grid) = .ok grid ∧ MaskExact grid := by
  have h : fromState (getstate grid) = .ok grid := by decide +kernel
  exact ⟨h, ((roundtrip_partial grid grid_wf).mp h).2⟩

/-! ## Histories -/

theorem mapM_congr {β γ : Type} (f g : β → Except Err γ) (l : List β) (h : ∀ x ∈ l, f x = g x) : l.mapM f = l.mapM g := by
  induction l with
  | nil => rfl
  | cons x l ih => rw [List.mapM_cons, List.mapM_cons, h x (by simp), ih fun y hy => h y (by simp [hy])]

/-- Only the names of variables in the list matter. -/
theorem reindex_congr (oldNumpy : Bool) (b : BS A) (dim : String) (spacing : ℚ) (weights : Weights) (force : Bool) (s1 s2 : List String)
    (h : ∀ c ∈ b.data, c.name ∈ s1 ↔ c.name ∈ s2) :
    reindex oldNumpy b dim spacing weights force s1 = reindex oldNumpy b dim spacing weights force s2 := by
  have key : ∀ (old new : List Nat) (w : Option (Bool × List Val)) (cut : List Val → List Val),
      b.data.mapM (fun c => rebinCol s1 old new w { c with vals := cut c.vals }) = b.data.mapM (fun c => rebinCol s2 old new w { c with vals := cut c.vals }) := by
    intro old new w cut
    apply mapM_congr
    intro c hc
    unfold rebinCol
    simp only [h c hc]
  unfold reindex
  dsimp only
  simp only [key]

/-- A call of `reindex` in a program. -/
structure Call (A : Type) where
  b : BS A
  dim : String
  spacing : ℚ
  weights : Weights
  force : Bool
  arg : Option (List String)

/-- The default list after a history of calls. -/
def runCalls (oldNumpy : Bool) (world : World) (hist : List (Call A)) : World :=
  hist.foldl (fun w c => (reindexCall oldNumpy w c.b c.dim c.spacing c.weights c.force c.arg).1) world

theorem runCalls_dflt (oldNumpy : Bool) (hist : List (Call A)) (world : World) (s : String) :
    s ∈ (runCalls oldNumpy world hist).dflt → s ∈ world.dflt ∨ ∃ c ∈ hist, c.arg = none ∧ s ∈ c.b.fts := by
  induction hist generalizing world with
  | nil => exact fun h => Or.inl h
  | cons c hist ih =>
    intro h
    rcases ih _ h with h1 | ⟨c', h1, h2, h3⟩
    · unfold reindexCall at h1
      dsimp only at h1
      split at h1
      · exact Or.inl h1
      · split at h1
        · rename_i ha
          simp only [List.mem_append] at h1
          rcases h1 with h1 | h1
          · exact Or.inl h1
          · exact Or.inr ⟨c, by simp, ha, h1⟩
        · exact Or.inl h1
    · exact Or.inr ⟨c', by simp [h1], h2, h3⟩

/-- C46. With a list given by the caller the result does not depend on any history. -/
theorem reindex_given_partial (oldNumpy : Bool) (h1 h2 : List (Call A)) (b : BS A) (dim : String) (spacing : ℚ) (weights : Weights) (force : Bool) (l : List String) :
    (reindexCall oldNumpy (runCalls oldNumpy ⟨[]⟩ h1) b dim spacing weights force (some l)).2 =
      (reindexCall oldNumpy (runCalls oldNumpy ⟨[]⟩ h2) b dim spacing weights force (some l)).2 := by
  unfold reindexCall
  split <;> rfl

/-- C46. With the default list the result does not depend on the history if the earlier calls were on objects whose variables to sum are also
summed here, or do not occur here. Missing: other histories, see `reindex_history`, and the list of the caller, see `reindex_argument`. -/
theorem reindex_default_partial (oldNumpy : Bool) (hist : List (Call A)) (b : BS A) (dim : String) (spacing : ℚ) (weights : Weights) (force : Bool)
    (h : ∀ c ∈ hist, c.arg = none → ∀ s ∈ c.b.fts, s ∈ b.fts ∨ ∀ v ∈ b.data, v.name ≠ s) :
    (reindexCall oldNumpy (runCalls oldNumpy ⟨[]⟩ hist) b dim spacing weights force none).2 =
      (reindexCall oldNumpy ⟨[]⟩ b dim spacing weights force none).2 := by
  unfold reindexCall
  split
  · rfl
  · dsimp only
    rw [reindex_congr]
    intro c hc
    rw [List.mem_append, List.nil_append]
    refine ⟨?_, Or.inr⟩
    rintro (hm | hm)
    · rcases runCalls_dflt oldNumpy hist ⟨[]⟩ c.name hm with h1 | ⟨k, h1, h2, h3⟩
      · cases h1
      · rcases h k h1 h2 _ h3 with h4 | h4
        · exact h4
        · exact absurd rfl (h4 c hc)
    · exact hm

/-- The negation of C46: `other` has a variable of the same name that is to be averaged. After `modes.reindex("k", 2)` it is summed. -/
theorem reindex_history :
    let other : BS Unit := { modes with fts := [] }
    let call : Call Unit := ⟨modes, "k", 2, .none, true, none⟩
    (reindexCall true ⟨[]⟩ other "k" 2 .none true none).2.2 = .ok ⟨["k"], [[0, 2]], [[1]], [⟨"modes", true, [.fin 4]⟩], [false], (), []⟩ ∧
    (reindexCall true (runCalls true ⟨[]⟩ [call]) other "k" 2 .none true none).2.2 =
      .ok ⟨["k"], [[0, 2]], [[1]], [⟨"modes", true, [.fin 8]⟩], [false], (), []⟩ := by
  refine ⟨?_, ?_⟩ <;> decide +kernel

/-- The negation of C46: the list of the caller grows with every call on an object that has variables to sum. -/
theorem reindex_argument (oldNumpy : Bool) (world : World) (b : BS A) (dim : String) (spacing : ℚ) (weights : Weights) (force : Bool) (l : List String)
    (hd : dim ∈ b.dims) (hf : b.fts ≠ []) :
    ∃ l', (reindexCall oldNumpy world b dim spacing weights force (some l)).2.1 = some l' ∧ l'.length > l.length := by
  unfold reindexCall
  rw [if_neg (by simpa using hd)]
  refine ⟨l ++ b.fts, rfl, ?_⟩
  have := List.length_pos_iff.mpr hf
  simp; omega

/-- The condition of `reindex_default_partial` holds for a program that uses objects with the same variables to sum. -/
example : ∀ c ∈ [(⟨modes, "k", 2, .none, true, none⟩ : Call Unit), ⟨tall, "r", 4, .none, true, none⟩], c.arg = none →
    ∀ s ∈ c.b.fts, s ∈ modes.fts ∨ ∀ v ∈ modes.data, v.name ≠ s := by
  decide +kernel

end NBK.Binned
