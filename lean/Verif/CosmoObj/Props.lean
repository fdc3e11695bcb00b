import Verif.CosmoObj.Model
import Mathlib.Tactic.ByContra

set_option linter.unusedSimpArgs false

/-! Attributes of the `Cosmology` object (C119): lookup in the delegates, setting attributes, `dir`. -/
namespace NBK.CosmoObj

open NBK.Cosmo (Dict Val)

/-- What it takes to make the delegate of a class: the engine is always there. -/
def build {α : Type} (L : Lib α) (i : Iface) (p : Dict) : Except Err Unit := if i = .engine then .ok () else L.make i p

/-- An object with an engine of the parameters `p`: the delegates made so far are made of this engine, each once. -/
def Sound {α : Type} (L : Lib α) (c : Obj α) (p : Dict) : Prop :=
  c.inst "engine" = some (.engine p) ∧ ∃ l, c.inst "delegates" = some (.delegates l) ∧ (l.map Prod.fst).Nodup ∧ .engine ∈ l.map Prod.fst ∧
    ∀ q ∈ l, q.2 = p ∧ build L q.1 p = .ok ()

/-- The same attributes except for the table of the delegates. -/
def Agree {α : Type} (c c' : Obj α) : Prop := ∀ n, n ≠ "delegates" → c.inst n = c'.inst n

theorem Agree.symm {α : Type} {c c' : Obj α} (h : Agree c c') : Agree c' c := fun n hn => (h n hn).symm

theorem Agree.trans {α : Type} {c c' c'' : Obj α} (h : Agree c c') (h' : Agree c' c'') : Agree c c'' := fun n hn => (h n hn).trans (h' n hn)

theorem lookup_none {β : Type} (l : List (Iface × β)) (i : Iface) : l.lookup i = none ↔ i ∉ l.map Prod.fst := by
  induction l with
  | nil => simp
  | cons q l ih =>
    rw [List.lookup_cons]
    by_cases h : i = q.1
    · simp [h]
    · have : (i == q.1) = false := by simpa using h
      rw [this]
      simp only [Bool.false_eq_true, if_false, List.map_cons, List.mem_cons, not_or]
      rw [ih]
      exact ⟨fun h' => ⟨h, h'⟩, fun h' => h'.2⟩

theorem lookup_mem {β : Type} (l : List (Iface × β)) (i : Iface) (b : β) (h : l.lookup i = some b) : (i, b) ∈ l := by
  induction l with
  | nil => simp at h
  | cons q l ih =>
    rw [List.lookup_cons] at h
    by_cases hi : i = q.1
    · have : (i == q.1) = true := by simpa using hi
      rw [this] at h
      simp only [if_true, Option.some.injEq] at h
      subst hi; subst h
      exact List.mem_cons_self
    · have : (i == q.1) = false := by simpa using hi
      rw [this] at h
      exact List.mem_cons_of_mem _ (ih h)

/-- The delegate of a class. -/
theorem delegate_spec {α : Type} (L : Lib α) (c : Obj α) (p : Dict) (hs : Sound L c p) (i : Iface) :
    (delegate L c i).1 = (build L i p).map (fun _ => p) ∧ Sound L (delegate L c i).2 p ∧ Agree (delegate L c i).2 c ∧
    ∃ l l', c.inst "delegates" = some (.delegates l) ∧ (delegate L c i).2.inst "delegates" = some (.delegates l') ∧ l <+: l' := by
  obtain ⟨he, l, hl, hn, hm, hq⟩ := hs
  unfold delegate
  rw [hl]
  dsimp only
  cases hlk : l.lookup i with
  | some p' =>
    obtain ⟨h1, h2⟩ := hq _ (lookup_mem l i p' hlk)
    dsimp only at h1 h2 ⊢
    rw [h2, h1]
    exact ⟨rfl, ⟨he, l, hl, hn, hm, hq⟩, fun n _ => rfl, l, l, rfl, hl, List.prefix_rfl⟩
  | none =>
    dsimp only
    have hni := (lookup_none l i).mp hlk
    have hne : i ≠ .engine := by rintro rfl; exact hni hm
    have hb : build L i p = L.make i p := by rw [build, if_neg hne]
    rw [he]
    dsimp only
    rw [hb]
    cases hmk : L.make i p with
    | error e => exact ⟨rfl, ⟨he, l, hl, hn, hm, hq⟩, fun n _ => rfl, l, l, rfl, hl, List.prefix_rfl⟩
    | ok u =>
      refine ⟨rfl, ⟨?_, l ++ [(i, p)], ?_, ?_, ?_, ?_⟩, ?_, l, l ++ [(i, p)], rfl, ?_, List.prefix_append _ _⟩
      · simpa [Obj.put] using he
      · simp [Obj.put]
      · rw [List.map_append, List.nodup_append]
        refine ⟨hn, by simp, ?_⟩
        intro a ha b hb'
        simp at hb'
        rintro rfl
        exact hni (hb' ▸ ha)
      · rw [List.map_append]; exact List.mem_append_left _ hm
      · intro q hq'
        rcases List.mem_append.mp hq' with h | h
        · exact hq q h
        · simp at h
          subst h
          exact ⟨rfl, hb.trans hmk⟩
      · intro n hn'; simp [Obj.put, hn']
      · simp [Obj.put]

/-- A step that depends on the attributes only, keeps them, and enters delegates of the same engine. -/
def Steady {α β : Type} (L : Lib α) (p : Dict) (f : Obj α → β × Obj α) : Prop :=
  ∀ c c', Sound L c p → Sound L c' p → Agree c c' → (f c).1 = (f c').1 ∧ Sound L (f c).2 p ∧ Agree (f c).2 c

theorem delegate_steady {α : Type} (L : Lib α) (p : Dict) (i : Iface) : Steady L p fun c => delegate L c i := by
  intro c c' h h' _
  obtain ⟨h1, h2, h3, _⟩ := delegate_spec L c p h i
  obtain ⟨g1, _, _, _⟩ := delegate_spec L c' p h' i
  exact ⟨h1.trans g1.symm, h2, h3⟩

/-- The rest of the program after a delegate. -/
theorem steady_bind {α β γ : Type} (L : Lib α) (p : Dict) (f : Obj α → β × Obj α) (hf : Steady L p f) (g : β → Obj α → γ × Obj α)
    (hg : ∀ b, Steady L p (g b)) : Steady L p fun c => g (f c).1 (f c).2 := by
  intro c c' h h' ha
  obtain ⟨h1, h2, h3⟩ := hf c c' h h' ha
  obtain ⟨_, k2, k3⟩ := hf c' c h' h ha.symm
  have := hg (f c).1 (f c).2 (f c').2 h2 k2 (h3.trans (ha.trans k3.symm))
  dsimp only
  rw [← h1]
  exact ⟨this.1, this.2.1, this.2.2.trans h3⟩

theorem steady_const {α β : Type} (L : Lib α) (p : Dict) (b : β) : Steady L p fun c => (b, c) := fun _ _ h _ _ => ⟨rfl, h, fun _ _ => rfl⟩

theorem through_steady {α : Type} (L : Lib α) (p : Dict) (i : Iface) (n : String) : Steady L p fun c => through L c i n := by
  have hi : i.name ≠ "delegates" := by cases i <;> decide
  have hd := steady_bind L p _ (delegate_steady L p i)
    (fun (r : Except Err Dict) c => (match r with | .ok p => L.attr i p n | .error e => .error e, c)) (fun _ => steady_const L p _)
  intro c c' h h' ha
  have h1 := hd c c' h h' ha
  unfold through
  dsimp only
  rw [← ha i.name hi]
  cases hc : c.inst i.name with
  | some v => exact ⟨rfl, h, fun _ _ => rfl⟩
  | none =>
    dsimp only at h1 ⊢
    rcases hx : delegate L c i with ⟨_ | _, _⟩ <;> rcases hy : delegate L c' i with ⟨_ | _, _⟩ <;> rw [hx, hy] at h1 <;> exact h1

theorem property_steady {α : Type} (L : Lib α) (p : Dict) (n : String) : Steady L p fun c => property L c n := by
  by_cases hn : n = "sigma8"
  · intro c c' h h' ha
    have := through_steady L p .spectra "sigma8" c c' h h' ha
    unfold property
    dsimp only
    rw [if_pos hn, if_pos hn]
    exact this
  · have hd := steady_bind L p _ (through_steady L p .background "Omega0_cdm")
      (fun (r : Except Err α) c => match r with
        | .error e => (Except.error e, c)
        | .ok a => ((match (through L c .background "Omega0_b").1 with | .error e => .error e | .ok b => .ok (L.plus a b)), (through L c .background "Omega0_b").2))
      (by
        intro r
        cases r with
        | error e => exact steady_const L p _
        | ok a =>
          exact steady_bind L p _ (through_steady L p .background "Omega0_b")
            (fun (r : Except Err α) c => ((match r with | .error e => Except.error e | .ok b => .ok (L.plus a b)), c)) (fun _ => steady_const L p _))
    have e : ∀ c, property L c n = (match (through L c .background "Omega0_cdm").1 with
        | .error e => (Except.error e, (through L c .background "Omega0_cdm").2)
        | .ok a => ((match (through L (through L c .background "Omega0_cdm").2 .background "Omega0_b").1 with | .error e => .error e | .ok b => .ok (L.plus a b)),
          (through L (through L c .background "Omega0_cdm").2 .background "Omega0_b").2)) := by
      intro c
      unfold property
      rw [if_neg hn]
      rcases through L c .background "Omega0_cdm" with ⟨_ | a, c1⟩
      · rfl
      · dsimp only
        rcases through L c1 .background "Omega0_b" with ⟨_ | b, c2⟩ <;> rfl
    intro c c' h h' ha
    have := hd c c' h h' ha
    simp only [e]
    exact this

theorem dunder_steady {α : Type} (L : Lib α) (p : Dict) (n : String) : Steady L p fun c => dunder L c n := by
  unfold dunder
  cases dro.find? fun i => i.name = n with
  | some i =>
    have hd := steady_bind L p _ (delegate_steady L p i)
      (fun (r : Except Err Dict) c => ((match r with | .ok p => Except.ok (Got.delegate (α := α) i p) | .error e => Except.error e), c)) (fun _ => steady_const L p _)
    intro c c' h h' ha
    have h1 := hd c c' h h' ha
    dsimp only at h1 ⊢
    rcases hx : delegate L c i with ⟨_ | _, _⟩ <;> rcases hy : delegate L c' i with ⟨_ | _, _⟩ <;> rw [hx, hy] at h1 <;> exact h1
  | none =>
    dsimp only
    cases dro.find? fun i => L.has i n with
    | none => exact steady_const L p _
    | some i =>
      have hd := steady_bind L p _ (delegate_steady L p i)
        (fun (r : Except Err Dict) c => ((match r with | .ok p => (L.attr i p n).map Got.attr | .error e => .error e), c)) (fun _ => steady_const L p _)
      intro c c' h h' ha
      have h1 := hd c c' h h' ha
      dsimp only at h1 ⊢
      rcases hx : delegate L c i with ⟨_ | _, _⟩ <;> rcases hy : delegate L c' i with ⟨_ | _, _⟩ <;> rw [hx, hy] at h1 <;> exact h1

theorem getattr_steady {α : Type} (L : Lib α) (p : Dict) (n : String) (hn : n ≠ "delegates") : Steady L p fun c => getattr L c n := by
  by_cases hp : n ∈ properties
  · have hd := steady_bind L p _ (property_steady L p n)
      (fun (r : Except Err α) c => match r with
        | .ok a => (.ok (Got.attr a), c)
        | .error .attributeError => dunder L c n
        | .error e => (.error e, c))
      (by
        intro r
        rcases r with e | a
        · cases e
          case attributeError => exact dunder_steady L p n
          all_goals exact steady_const L p _
        · exact steady_const L p _)
    have e : ∀ c, getattr L c n = (match (property L c n).1 with
        | .ok a => (.ok (Got.attr a), (property L c n).2)
        | .error .attributeError => dunder L (property L c n).2 n
        | .error e => (.error e, (property L c n).2)) := by
      intro c
      unfold getattr
      rw [if_pos hp]
      rcases property L c n with ⟨e | a, c1⟩
      · cases e <;> rfl
      · rfl
    intro c c' h h' ha
    have := hd c c' h h' ha
    simp only [e]
    exact this
  · intro c c' h h' ha
    unfold getattr
    dsimp only
    rw [if_neg hp, if_neg hp, ← ha n hn]
    cases c.inst n with
    | some v => exact ⟨rfl, h, fun _ _ => rfl⟩
    | none =>
      dsimp only
      split
      · exact ⟨rfl, h, fun _ _ => rfl⟩
      · exact dunder_steady L p n c c' h h' ha

/-- Reading an attribute keeps the object sound and its attributes, also for the table itself. -/
theorem getattr_keeps {α : Type} (L : Lib α) (c : Obj α) (p : Dict) (hs : Sound L c p) (n : String) :
    Sound L (getattr L c n).2 p ∧ Agree (getattr L c n).2 c := by
  by_cases hn : n = "delegates"
  · obtain ⟨he, l, hl, h⟩ := hs
    subst hn
    unfold getattr
    rw [if_neg (by decide), hl]
    exact ⟨⟨he, l, hl, h⟩, fun _ _ => rfl⟩
  · exact (getattr_steady L p n hn c c hs hs fun _ _ => rfl).2

theorem find_first {β : Type} (f : β → Bool) (pre post : List β) (i : β) (h : ∀ j ∈ pre, f j = false) (hi : f i = true) :
    (pre ++ i :: post).find? f = some i := by
  rw [List.find?_append, List.find?_eq_none.mpr (by intro x hx; simp [h x hx]), List.find?_cons_of_pos hi]
  rfl

/-- C119, lookup: a name that is neither of the class nor set on the instance is the attribute of the first class of `dro`
that has it, of a delegate with the engine of the object; the name of a class gives the delegate; other names are an
AttributeError.  An exception in making the delegate is raised. -/
theorem getattr_spec {α : Type} (L : Lib α) (c : Obj α) (p : Dict) (hs : Sound L c p) (n : String) (hp : n ∉ properties) (ho : n ∉ ownNames)
    (hi : c.inst n = none) :
    (∀ i : Iface, n = i.name → (getattr L c n).1 = (build L i p).map fun _ => .delegate i p) ∧
    (n ∉ ifaceNames → ∀ pre i post, dro = pre ++ i :: post → (∀ j ∈ pre, L.has j n = false) → L.has i n = true →
      (getattr L c n).1 = (build L i p).bind fun _ => (L.attr i p n).map .attr) ∧
    (n ∉ ifaceNames → (∀ i, L.has i n = false) → (getattr L c n).1 = .error .attributeError) := by
  have e : getattr L c n = dunder L c n := by
    unfold getattr
    rw [if_neg hp, hi]
    dsimp only
    rw [if_neg ho]
  have hnone : n ∉ ifaceNames → dro.find? (fun i => decide (i.name = n)) = none := by
    intro h
    rw [List.find?_eq_none]
    intro i hi'
    simp only [decide_eq_true_eq]
    rintro rfl
    exact h (List.mem_map_of_mem hi')
  rw [e]
  unfold dunder
  refine ⟨?_, ?_, ?_⟩
  · rintro i rfl
    have hf : dro.find? (fun j => decide (j.name = i.name)) = some i := by cases i <;> decide
    rw [hf]
    dsimp only
    have := (delegate_spec L c p hs i).1
    rcases hd : delegate L c i with ⟨x, c1⟩
    rw [hd] at this
    dsimp only at this
    subst this
    cases build L i p <;> rfl
  · intro h pre i post hd hj hh
    rw [hnone h]
    dsimp only
    rw [hd, find_first _ pre post i hj hh]
    dsimp only
    have := (delegate_spec L c p hs i).1
    rcases hd : delegate L c i with ⟨x, c1⟩
    rw [hd] at this
    dsimp only at this
    subst this
    cases build L i p <;> rfl
  · intro h hh
    rw [hnone h]
    dsimp only
    rw [List.find?_eq_none.mpr (by intro i _; simp [hh i])]

/-- C119, lookup: reading attributes has no effect on later reads: after any number of them an attribute has the value it
has at once, and each class was made at most once. -/
theorem history_irrelevant {α : Type} (L : Lib α) (c : Obj α) (p : Dict) (hs : Sound L c p) (ns : List String) (n : String) (hn : n ≠ "delegates") :
    (getattr L (ns.foldl (fun c m => (getattr L c m).2) c) n).1 = (getattr L c n).1 ∧
    ∃ l, (ns.foldl (fun c m => (getattr L c m).2) c).inst "delegates" = some (.delegates l) ∧ (l.map Prod.fst).Nodup ∧ ∀ q ∈ l, q.2 = p := by
  have key : ∀ c, Sound L c p → Sound L (ns.foldl (fun c m => (getattr L c m).2) c) p ∧ Agree (ns.foldl (fun c m => (getattr L c m).2) c) c := by
    induction ns with
    | nil => intro c h; exact ⟨h, fun _ _ => rfl⟩
    | cons m ns ih =>
      intro c h
      obtain ⟨h1, h2⟩ := getattr_keeps L c p h m
      obtain ⟨g1, g2⟩ := ih _ h1
      exact ⟨g1, g2.trans h2⟩
  obtain ⟨k1, k2⟩ := key c hs
  refine ⟨(getattr_steady L p n hn _ c k1 hs k2).1, ?_⟩
  obtain ⟨_, l, hl, hnd, _, hq⟩ := k1
  exact ⟨l, hl, hnd, fun q h => (hq q h).1⟩

/-- C119, properties: `sigma8` is that of the spectra and `Omega0_cb` the sum of the densities of the background. -/
theorem property_spec {α : Type} (L : Lib α) (c : Obj α) (p : Dict) (hs : Sound L c p) :
    (∀ a, c.inst "Spectra" = none → L.make .spectra p = .ok () → L.attr .spectra p "sigma8" = .ok a → (getattr L c "sigma8").1 = .ok (.attr a)) ∧
    (∀ a b, c.inst "Background" = none → L.make .background p = .ok () → L.attr .background p "Omega0_cdm" = .ok a →
      L.attr .background p "Omega0_b" = .ok b → (getattr L c "Omega0_cb").1 = .ok (.attr (L.plus a b))) := by
  have hthr : ∀ (c : Obj α), Sound L c p → ∀ (i : Iface) (n : String) (a : α), i ≠ .engine → c.inst i.name = none → L.make i p = .ok () →
      L.attr i p n = .ok a → (through L c i n).1 = .ok a := by
    intro c hs i n a hne h0 hm ha
    unfold through
    rw [h0]
    dsimp only
    have := (delegate_spec L c p hs i).1
    rcases hd : delegate L c i with ⟨x, c1⟩
    rw [hd] at this
    dsimp only at this
    rw [build, if_neg hne, hm] at this
    subst this
    exact ha
  constructor
  · intro a h0 hm ha
    have h1 := hthr c hs .spectra "sigma8" a (by decide) h0 hm ha
    unfold getattr
    rw [if_pos (by decide)]
    unfold property
    rw [if_pos rfl]
    rcases hx : through L c .spectra "sigma8" with ⟨x, c1⟩
    rw [hx] at h1
    dsimp only at h1
    subst h1
    rfl
  · intro a b h0 hm ha hb
    have h1 := hthr c hs .background "Omega0_cdm" a (by decide) h0 hm ha
    obtain ⟨_, h2, h3⟩ := through_steady L p .background "Omega0_cdm" c c hs hs fun _ _ => rfl
    dsimp only at h2 h3
    have h4 := hthr _ h2 .background "Omega0_b" b (by decide) ((h3 _ (by decide)).trans h0) hm hb
    unfold getattr
    rw [if_pos (by decide)]
    unfold property
    rw [if_neg (by decide)]
    rcases hx : through L c .background "Omega0_cdm" with ⟨x, c1⟩
    rw [hx] at h1 h4
    dsimp only at h1 h4
    subst h1
    dsimp only
    rcases hy : through L c1 .background "Omega0_b" with ⟨y, c2⟩
    rw [hy] at h4
    dsimp only at h4
    subst h4
    rfl

/-- C119, setting attributes: a name of a delegate class is refused, and so are the properties; any other name is set on
the instance, and is read back unless it is a property. -/
theorem setattr_spec {α : Type} (L : Lib α) (c : Obj α) (k : String) (v : V α) :
    ((∃ i, L.has i k = true) → setattr L c k v = .error .valueError) ∧
    ((∀ i, L.has i k = false) → k ∈ properties → setattr L c k v = .error .attributeError) ∧
    ((∀ i, L.has i k = false) → k ∉ properties → ∃ c', setattr L c k v = .ok c' ∧ (∀ n, n ≠ k → c'.inst n = c.inst n) ∧ getattr L c' k = (.ok (.inst v), c')) := by
  have hany : (∀ i, L.has i k = false) → ¬ (dro.any fun i => L.has i k) = true := by
    intro h
    simp [h]
  refine ⟨?_, ?_, ?_⟩
  · rintro ⟨i, hi⟩
    unfold setattr
    rw [if_pos]
    rw [List.any_eq_true]
    exact ⟨i, by cases i <;> decide, hi⟩
  · intro h hk
    unfold setattr
    rw [if_neg (hany h), if_pos hk]
  · intro h hk
    refine ⟨c.put k v, ?_, ?_, ?_⟩
    · unfold setattr; rw [if_neg (hany h), if_neg hk]
    · intro n hn; simp [Obj.put, hn]
    · unfold getattr
      rw [if_neg hk]
      simp [Obj.put]

/-- C119, setting attributes: `setattr` cannot change what is read through the delegates, as long as it does not set the
engine, the table, or the name of a delegate class. -/
theorem setattr_harmless_partial {α : Type} (L : Lib α) (c c' : Obj α) (p : Dict) (hs : Sound L c p) (k : String) (v : V α) (h : setattr L c k v = .ok c')
    (h1 : k ≠ "engine") (h2 : k ≠ "delegates") (h3 : k ∉ ifaceNames) :
    Sound L c' p ∧ ∀ n, n ≠ k → n ≠ "delegates" → (getattr L c' n).1 = (getattr L c n).1 := by
  have hc : c' = c.put k v := by
    unfold setattr at h
    split at h
    · cases h
    · split at h
      · cases h
      · exact (Except.ok.inj h).symm
  subst hc
  have hs' : Sound L (c.put k v) p := by
    obtain ⟨he, l, hl, hr⟩ := hs
    refine ⟨?_, l, ?_, hr⟩
    · show (if "engine" = k then _ else _) = _
      rw [if_neg (Ne.symm h1)]; exact he
    · show (if "delegates" = k then _ else _) = _
      rw [if_neg (Ne.symm h2)]; exact hl
  refine ⟨hs', ?_⟩
  intro n hn hnd
  have hi : ∀ x, x ≠ k → (c.put k v).inst x = c.inst x := fun x hx => by simp [Obj.put, hx]
  have hdel : ∀ (c c' : Obj α), Sound L c p → Sound L c' p → ∀ i, (delegate L c i).1 = (delegate L c' i).1 := fun c c' h h' i =>
    ((delegate_spec L c p h i).1).trans (delegate_spec L c' p h' i).1.symm
  have hname : ∀ i : Iface, i.name ≠ k := fun i e => h3 (e ▸ List.mem_map_of_mem (by cases i <;> decide))
  have hdun : ∀ (c c' : Obj α), Sound L c p → Sound L c' p → (dunder L c n).1 = (dunder L c' n).1 := by
    intro c c' g g'
    unfold dunder
    cases dro.find? fun i => i.name = n with
    | some i =>
      have := hdel c c' g g' i
      dsimp only
      rcases hx : delegate L c i with ⟨_ | _, _⟩ <;> rcases hy : delegate L c' i with ⟨_ | _, _⟩ <;> rw [hx, hy] at this <;> cases this <;> rfl
    | none =>
      dsimp only
      cases dro.find? fun i => L.has i n with
      | none => rfl
      | some i =>
        have := hdel c c' g g' i
        dsimp only
        rcases hx : delegate L c i with ⟨_ | _, _⟩ <;> rcases hy : delegate L c' i with ⟨_ | _, _⟩ <;> rw [hx, hy] at this <;> cases this <;> rfl
  have hthr : ∀ (c c' : Obj α), Sound L c p → Sound L c' p → (∀ i : Iface, c.inst i.name = c'.inst i.name) → ∀ i m, (through L c i m).1 = (through L c' i m).1 := by
    intro c c' g g' e i m
    unfold through
    rw [e i]
    cases c'.inst i.name with
    | some v => rfl
    | none =>
      have := hdel c c' g g' i
      dsimp only
      rcases hx : delegate L c i with ⟨_ | _, _⟩ <;> rcases hy : delegate L c' i with ⟨_ | _, _⟩ <;> rw [hx, hy] at this <;> cases this <;> rfl
  have hnames : ∀ i : Iface, (c.put k v).inst i.name = c.inst i.name := fun i => hi _ (hname i)
  have hifd : ∀ i : Iface, i.name ≠ "delegates" := by intro i; cases i <;> decide
  by_cases hp : n ∈ properties
  · have hprop : (property L (c.put k v) n).1 = (property L c n).1 := by
      unfold property
      split
      · exact hthr _ _ hs' hs hnames _ _
      · have e1 := hthr _ _ hs' hs hnames .background "Omega0_cdm"
        obtain ⟨_, s1, a1⟩ := through_steady L p .background "Omega0_cdm" _ _ hs' hs' fun _ _ => rfl
        obtain ⟨_, s2, a2⟩ := through_steady L p .background "Omega0_cdm" _ _ hs hs fun _ _ => rfl
        dsimp only at s1 s2 a1 a2
        have e2 := hthr _ _ s1 s2 (fun i => (a1 _ (hifd i)).trans ((hnames i).trans (a2 _ (hifd i)).symm)) .background "Omega0_b"
        rcases hx : through L (c.put k v) .background "Omega0_cdm" with ⟨x, c1⟩
        rcases hy : through L c .background "Omega0_cdm" with ⟨y, c2⟩
        rw [hx, hy] at e1 e2
        dsimp only at e1 e2
        subst e1
        cases x with
        | error e => rfl
        | ok a =>
          dsimp only
          rcases hx2 : through L c1 .background "Omega0_b" with ⟨x2, c3⟩
          rcases hy2 : through L c2 .background "Omega0_b" with ⟨y2, c4⟩
          rw [hx2, hy2] at e2
          dsimp only at e2
          subst e2
          cases x2 <;> rfl
    obtain ⟨_, s1, _⟩ := property_steady L p n _ _ hs' hs' fun _ _ => rfl
    obtain ⟨_, s2, _⟩ := property_steady L p n _ _ hs hs fun _ _ => rfl
    unfold getattr
    rw [if_pos hp, if_pos hp]
    dsimp only at s1 s2
    rcases hx : property L (c.put k v) n with ⟨x, c1⟩
    rcases hy : property L c n with ⟨y, c2⟩
    rw [hx, hy] at hprop
    rw [hx] at s1
    rw [hy] at s2
    dsimp only at hprop
    subst hprop
    rcases x with e | a
    · cases e
      case attributeError => exact hdun _ _ s1 s2
      all_goals rfl
    · rfl
  · unfold getattr
    rw [if_neg hp, if_neg hp, hi n hn]
    cases c.inst n with
    | some v => rfl
    | none =>
      dsimp only
      split
      · rfl
      · exact hdun _ _ hs' hs

/-- C119, `dir`: sorted, without duplicates, the names of the classes and what `dir` of the classes gives. -/
theorem dir_spec {α : Type} (L : Lib α) :
    (dirOf L).Pairwise (· < ·) ∧ ∀ n, n ∈ dirOf L ↔ n ∈ ifaceNames ∨ ∃ i, n ∈ L.names i := by
  constructor
  · have h1 : (dirOf L).Pairwise (· ≤ ·) := List.pairwise_insertionSort _ _
    have h2 : (dirOf L).Nodup := (List.perm_insertionSort _ _).nodup_iff.mpr (List.nodup_dedup _)
    exact (h1.and h2).imp fun h => lt_of_le_of_ne h.1 h.2
  · intro n
    unfold dirOf
    rw [List.mem_insertionSort, List.mem_dedup, List.mem_append]
    refine or_congr Iff.rfl ?_
    rw [List.mem_flatMap]
    constructor
    · rintro ⟨i, _, h⟩; exact ⟨i, h⟩
    · rintro ⟨i, h⟩; exact ⟨i, by cases i <;> decide, h⟩

end NBK.CosmoObj
