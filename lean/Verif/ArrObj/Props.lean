import Verif.ArrObj.Model
import Mathlib.Tactic.ByContra

/-!
# C121: making an `ArrayCatalog`
-/
set_option linter.unusedSimpArgs false
namespace NBK.ArrObj

variable {ρ : Type}

/-- The entries that a rank passes, if its data have fields. -/
def fieldsOf (m : Mem ρ) : Data → Option (List (String × Nat))
  | .dict d => some (m.dicts d)
  | .fields l => some l
  | .plain => none

/-- The names with their types. -/
def types (m : Mem ρ) (l : List (String × Nat)) : List (String × String) := l.map fun p => (p.1, (m.arrs p.2).dtype)

/-- Data that a rank can use: some columns, all of the same number of rows. -/
def Usable (m : Mem ρ) (l : List (String × Nat)) (n : Nat) : Prop := l ≠ [] ∧ ∀ p ∈ l, (m.arrs p.2).rows.length = n

theorem get_mem (m : Mem ρ) (s : Src) (hn : ((s.entries m).map Prod.fst).Nodup) (p : String × Nat) (hp : p ∈ s.entries m) : s.get m p.1 = some p.2 := by
  unfold Src.get
  generalize s.entries m = l at hn hp
  induction l with
  | nil => cases hp
  | cons q l ih =>
    rw [List.map_cons, List.nodup_cons] at hn
    rcases List.mem_cons.1 hp with rfl | hp
    · simp
    · have : ¬ q.1 = p.1 := by
        intro h
        exact hn.1 (h ▸ List.mem_map_of_mem hp)
      rw [List.find?_cons, decide_eq_false this]
      exact ih hn.2 hp

theorem mem_keys (m : Mem ρ) (s : Src) (k : String) : k ∈ s.keys m ↔ k ∈ (s.entries m).map Prod.fst := by
  unfold Src.keys
  exact List.mem_insertionSort _

theorem mem_dtype (m : Mem ρ) (s : Src) (hn : ((s.entries m).map Prod.fst).Nodup) (x : String × String) : x ∈ s.dtype m ↔ x ∈ types m (s.entries m) := by
  unfold Src.dtype types
  simp only [List.mem_map, mem_keys]
  constructor
  · rintro ⟨k, ⟨p, hp, rfl⟩, rfl⟩
    exact ⟨p, hp, by rw [get_mem m s hn p hp]; rfl⟩
  · rintro ⟨p, hp, rfl⟩
    exact ⟨p.1, ⟨p, hp, rfl⟩, by rw [get_mem m s hn p hp]; rfl⟩

theorem dtype_keys (m : Mem ρ) (s : Src) : (s.dtype m).map Prod.fst = s.keys m := by
  unfold Src.dtype
  rw [List.map_map]
  simp [Function.comp_def]

theorem keys_nodup (m : Mem ρ) (s : Src) (hn : ((s.entries m).map Prod.fst).Nodup) : (s.keys m).Nodup :=
  (List.perm_insertionSort _ _).nodup_iff.2 hn

theorem keys_sorted (m : Mem ρ) (s : Src) : (s.keys m).Pairwise (· ≤ ·) := List.pairwise_insertionSort _ _

/-- Two ranks have the same data type exactly if they have the same names with the same types, in whatever order. -/
theorem dtype_eq_iff (m m' : Mem ρ) (s s' : Src) (hn : ((s.entries m).map Prod.fst).Nodup) (hn' : ((s'.entries m').map Prod.fst).Nodup) :
    s.dtype m = s'.dtype m' ↔ ∀ x, x ∈ types m (s.entries m) ↔ x ∈ types m' (s'.entries m') := by
  constructor
  · intro h x
    rw [← mem_dtype m s hn, ← mem_dtype m' s' hn', h]
  · intro h
    have hx : ∀ x, x ∈ s.dtype m ↔ x ∈ s'.dtype m' := fun x => by rw [mem_dtype m s hn, mem_dtype m' s' hn', h]
    have hk : s.keys m = s'.keys m' := by
      apply List.Perm.eq_of_pairwise (le := (· ≤ ·)) (fun a b _ _ h1 h2 => le_antisymm h1 h2) (keys_sorted m s) (keys_sorted m' s')
      rw [List.perm_ext_iff_of_nodup (keys_nodup m s hn) (keys_nodup m' s' hn')]
      intro k
      rw [← dtype_keys m s, ← dtype_keys m' s']
      simp only [List.mem_map]
      constructor
      · rintro ⟨x, hm, rfl⟩; exact ⟨x, (hx x).1 hm, rfl⟩
      · rintro ⟨x, hm, rfl⟩; exact ⟨x, (hx x).2 hm, rfl⟩
    unfold Src.dtype
    rw [← hk]
    apply List.map_congr_left
    intro k hkm
    have h1 : (k, ((s.get m k).elim "" fun i => (m.arrs i).dtype)) ∈ s.dtype m := List.mem_map.2 ⟨k, hkm, rfl⟩
    have h2 := (hx _).1 h1
    obtain ⟨j, hj, he⟩ := List.mem_map.1 h2
    injection he with e1 e2
    subst e1
    rw [e2]

/-- The sizes: a rank accepts its data exactly if there is a column and all have the same number of rows. -/
theorem sizeOf_iff (m : Mem ρ) (s : Src) (hn : ((s.entries m).map Prod.fst).Nodup) (n : Nat) : sizeOf m s = .ok n ↔ Usable m (s.entries m) n := by
  have hl : ∀ p ∈ s.entries m, s.lenOf m p.1 = (m.arrs p.2).rows.length := by
    intro p hp
    unfold Src.lenOf
    rw [get_mem m s hn p hp]
    rfl
  unfold sizeOf Usable
  cases hk : s.keys m with
  | nil =>
    have : s.entries m = [] := by
      by_contra hne
      obtain ⟨p, hp⟩ := List.exists_mem_of_ne_nil _ hne
      have := (mem_keys m s p.1).2 (List.mem_map_of_mem hp)
      rw [hk] at this
      cases this
    simp [this]
  | cons k l =>
    have hkm : ∀ j, j ∈ k :: l ↔ j ∈ (s.entries m).map Prod.fst := fun j => by rw [← hk]; exact mem_keys m s j
    have hne : s.entries m ≠ [] := by
      intro h
      have := (hkm k).1 List.mem_cons_self
      rw [h] at this
      cases this
    simp only
    constructor
    · intro h
      split at h
      · cases h
      · rename_i hf
        injection h with h
        refine ⟨hne, fun p hp => ?_⟩
        rw [← hl p hp, ← h]
        have hp' := (hkm p.1).2 (List.mem_map_of_mem hp)
        rcases List.mem_cons.1 hp' with e | hp'
        · rw [e]
        · by_contra hc
          exact hf (List.any_eq_true.2 ⟨p.1, hp', by simpa using hc⟩)
    · rintro ⟨_, hu⟩
      have hall : ∀ j ∈ k :: l, s.lenOf m j = n := by
        intro j hj
        obtain ⟨p, hp, rfl⟩ := List.mem_map.1 ((hkm j).1 hj)
        rw [hl p hp, hu p hp]
      rw [if_neg, hall k List.mem_cons_self]
      intro hc
      obtain ⟨j, hj, hd⟩ := List.any_eq_true.1 hc
      rw [hall j (List.mem_cons_of_mem _ hj), hall k List.mem_cons_self] at hd
      simp at hd

/-- `Src` and `Data` have the same entries. -/
theorem source_some (m : Mem ρ) (d : Data) (s : Src) (h : source d = .ok s) : fieldsOf m d = some (s.entries m) := by
  cases d with
  | dict i => injection h with h; subst h; rfl
  | fields l => injection h with h; subst h; rfl
  | plain => cases h

/-- All ranks have fields: the sources. -/
theorem mapM_sources (args : List (Mem ρ × Data)) : (∀ p ∈ args, p.2 ≠ .plain) →
    ∃ ms : List (Mem ρ × Src), (args.mapM fun p => (source p.2).toOption.map fun s => (p.1, s)) = some ms ∧
      List.Forall₂ (fun p q => q.1 = p.1 ∧ source p.2 = .ok q.2) args ms := by
  induction args with
  | nil => exact fun _ => ⟨[], rfl, .nil⟩
  | cons p args ih =>
    intro h
    obtain ⟨ms, h1, h2⟩ := ih (fun q hq => h q (List.mem_cons_of_mem _ hq))
    have hp := h p List.mem_cons_self
    obtain ⟨s, hs⟩ : ∃ s, source p.2 = .ok s := by
      rcases hd : p.2 with i | l | _
      · exact ⟨_, rfl⟩
      · exact ⟨_, rfl⟩
      · exact absurd hd hp
    refine ⟨(p.1, s) :: ms, ?_, .cons ⟨rfl, hs⟩ h2⟩
    rw [List.mapM_cons, h1, hs]
    rfl

theorem mapM_none (args : List (Mem ρ × Data)) (h : ∃ p ∈ args, p.2 = .plain) :
    (args.mapM fun p => (source p.2).toOption.map fun s => (p.1, s)) = none := by
  induction args with
  | nil => obtain ⟨p, hp, _⟩ := h; cases hp
  | cons q args ih =>
    obtain ⟨p, hp, hpl⟩ := h
    rw [List.mapM_cons]
    rcases List.mem_cons.1 hp with rfl | hp
    · rw [hpl]; rfl
    · cases (source q.2).toOption with
      | none => rfl
      | some s =>
        rw [ih ⟨p, hp, hpl⟩]
        rfl

/-- All done or none done. -/
theorem afterGather_all (ms : List (Mem ρ × Src)) (kw : List (String × Nat)) :
    (∃ x, Outcome.done x ∈ afterGather ms kw) → ∀ o ∈ afterGather ms kw, ∃ x, o = .done x := by
  unfold afterGather
  dsimp only
  split
  · rintro _ o ho
    obtain ⟨p, _, rfl⟩ := List.mem_map.1 ho
    exact ⟨_, rfl⟩
  · rintro ⟨x, hx⟩
    obtain ⟨p, _, hp⟩ := List.mem_map.1 hx
    split at hp <;> cases hp

/-- **Either all ranks get a catalog or none does.** -/
theorem all_or_none (args : List (Mem ρ × Data)) (kw : List (String × Nat)) (h : ∃ x, Outcome.done x ∈ new args kw) : ∀ o ∈ new args kw, ∃ x, o = .done x := by
  unfold new at h ⊢
  cases hm : (args.mapM fun p => (source p.2).toOption.map fun s => (p.1, s)) with
  | some ms =>
    rw [hm] at h
    exact afterGather_all ms kw h
  | none =>
    rw [hm] at h
    obtain ⟨x, hx⟩ := h
    obtain ⟨p, _, hp⟩ := List.mem_map.1 hx
    split at hp <;> cases hp

/-- The data of the ranks go together: every rank has columns, of one length on that rank, and all ranks the same names with the same types. -/
structure Good (args : List (Mem ρ × Data)) (ns : List Nat) : Prop where
  usable : List.Forall₂ (fun p n => ∃ l, fieldsOf p.1 p.2 = some l ∧ Usable p.1 l n) args ns
  same : ∀ p ∈ args, ∀ q ∈ args, ∀ l l', fieldsOf p.1 p.2 = some l → fieldsOf q.1 q.2 = some l' → ∀ x, x ∈ types p.1 l ↔ x ∈ types q.1 l'

/-- Keys of dictionaries and names of fields are distinct. -/
def Distinct (args : List (Mem ρ × Data)) : Prop := ∀ p ∈ args, ∀ l, fieldsOf p.1 p.2 = some l → (l.map Prod.fst).Nodup

/-- A list of results `r` of the ranks: the catalogs. -/
def catalogs (args : List (Mem ρ × Data)) (ns : List Nat) (kw : List (String × Nat)) : List Outcome :=
  (args.zip ns).map fun p =>
    match p.1.2 with
    | .dict d => .done ⟨.dict d, ((p.1.1.dicts d).map Prod.fst).insertionSort (· ≤ ·), p.2, ns.sum, kw⟩
    | .fields l => .done ⟨.fields l, (l.map Prod.fst).insertionSort (· ≤ ·), p.2, ns.sum, kw⟩
    | .plain => .stuck

theorem good_alone (args : List (Mem ρ × Data)) (ms : List (Mem ρ × Src)) (ns : List Nat) (hd : Distinct args) (hg : Good args ns)
    (hf : List.Forall₂ (fun p q => q.1 = p.1 ∧ source p.2 = .ok q.2) args ms) :
    (ms.mapIdx fun r p => alone ms r p.1 p.2) = ns.map .ok := by
  have hmem : ∀ q ∈ ms, ∃ p ∈ args, q.1 = p.1 ∧ source p.2 = .ok q.2 := by
    intro q hq
    clear hg hd
    induction hf with
    | nil => cases hq
    | cons hab _ ih =>
      rcases List.mem_cons.1 hq with rfl | hq
      · exact ⟨_, List.mem_cons_self, hab⟩
      · obtain ⟨p, hp, h⟩ := ih hq
        exact ⟨p, List.mem_cons_of_mem _ hp, h⟩
  have hnd : ∀ q ∈ ms, ((q.2.entries q.1).map Prod.fst).Nodup := by
    intro q hq
    obtain ⟨p, hp, h1, h2⟩ := hmem q hq
    rw [h1]
    exact hd p hp _ (source_some p.1 p.2 q.2 h2)
  have hsame : ∀ q ∈ ms, ∀ q' ∈ ms, q.2.dtype q.1 = q'.2.dtype q'.1 := by
    intro q hq q' hq'
    rw [dtype_eq_iff _ _ _ _ (hnd q hq) (hnd q' hq')]
    obtain ⟨p, hp, h1, h2⟩ := hmem q hq
    obtain ⟨p', hp', h1', h2'⟩ := hmem q' hq'
    rw [h1, h1']
    exact hg.same p hp p' hp' _ _ (source_some p.1 p.2 q.2 h2) (source_some p'.1 p'.2 q'.2 h2')
  have hal : ∀ r, ∀ q ∈ ms, alone ms r q.1 q.2 = sizeOf q.1 q.2 := by
    intro r q hq
    unfold alone
    rw [if_neg]
    rintro ⟨_, hc⟩
    obtain ⟨q', hq', hne⟩ := List.any_eq_true.1 hc
    simp only [ne_eq, decide_not, Bool.not_eq_eq_eq_not, Bool.not_true, decide_eq_false_iff_not] at hne
    exact hne (hsame q' hq' q hq)
  have h1 : (ms.mapIdx fun r p => alone ms r p.1 p.2) = ms.map fun p => sizeOf p.1 p.2 := by
    apply List.ext_getElem?
    intro i
    rw [List.getElem?_mapIdx, List.getElem?_map]
    cases h : ms[i]? with
    | none => rfl
    | some q => simp only [Option.map_some]; rw [hal i q (List.mem_of_getElem? h)]
  rw [h1]
  have hu := hg.usable
  clear h1 hal hsame hg hmem
  induction hf generalizing ns with
  | nil => cases hu; rfl
  | cons hab _ ih =>
    rename_i p q args ms _
    cases hu with
    | cons hpn hrest =>
      rename_i n ns
      obtain ⟨l, hl, hU⟩ := hpn
      rw [source_some p.1 p.2 q.2 hab.2] at hl
      injection hl with hl
      rw [List.map_cons, List.map_cons]
      congr 1
      · rw [(sizeOf_iff q.1 q.2 (hnd q List.mem_cons_self) n).2]
        rw [hab.1, hl]
        exact hU
      · exact ih ns (fun x hx => hd x (List.mem_cons_of_mem _ hx)) (fun x hx => hnd x (List.mem_cons_of_mem _ hx)) hrest

/-- **The catalogs.** Data that go together give a catalog on every rank: the columns are the fields in order, the size that of the columns of the rank, the collective size
their sum, `attrs` the keywords. -/
theorem new_spec (args : List (Mem ρ × Data)) (ns : List Nat) (kw : List (String × Nat)) (hd : Distinct args) (hg : Good args ns) :
    new args kw = catalogs args ns kw := by
  have hp : ∀ p ∈ args, p.2 ≠ .plain := by
    intro p hp hpl
    have hu := hg.usable
    clear hg hd
    induction hu with
    | nil => cases hp
    | cons hab _ ih =>
      rcases List.mem_cons.1 hp with rfl | hp
      · obtain ⟨l, hl, _⟩ := hab
        rw [hpl] at hl
        cases hl
      · exact ih hp
  obtain ⟨ms, h1, h2⟩ := mapM_sources args hp
  have hal := good_alone args ms ns hd hg h2
  unfold new
  rw [h1]
  unfold afterGather
  dsimp only
  have hres : (ms.mapIdx fun r p => (alone ms r p.1 p.2, p.1, p.2)).map Prod.fst = ns.map .ok := by
    rw [← hal]
    apply List.ext_getElem?
    intro i
    simp only [List.getElem?_map, List.getElem?_mapIdx]
    cases ms[i]? <;> rfl
  have hsz : (ms.mapIdx fun r p => (alone ms r p.1 p.2, p.1, p.2)).map (fun p => p.1.toOption.getD 0) = ns := by
    have : (ms.mapIdx fun r p => (alone ms r p.1 p.2, p.1, p.2)).map (fun p => p.1.toOption.getD 0) =
        ((ms.mapIdx fun r p => (alone ms r p.1 p.2, p.1, p.2)).map Prod.fst).map fun x => x.toOption.getD 0 := by
      rw [List.map_map]; rfl
    rw [this, hres, List.map_map]
    simp [Function.comp_def, Except.toOption]
  rw [if_pos, hsz]
  · have hz : (ms.mapIdx fun r p => (alone ms r p.1 p.2, p.1, p.2)) = (ns.zip ms).map fun q => (.ok q.1, q.2.1, q.2.2) := by
      apply List.ext_getElem?
      intro i
      have hi := congrArg (fun l => l[i]?) hal
      simp only [List.getElem?_mapIdx, List.getElem?_map] at hi
      rw [List.getElem?_mapIdx, List.getElem?_map, List.zip_eq_zipWith, List.getElem?_zipWith]
      cases hm : ms[i]? with
      | none => cases ns[i]? <;> rfl
      | some q =>
        rw [hm] at hi
        cases hn : ns[i]? with
        | none => rw [hn] at hi; cases hi
        | some n =>
          rw [hn] at hi
          simp only [Option.map_some, Option.some.injEq] at hi
          simp [hi]
    rw [hz, List.map_map]
    unfold catalogs
    have hu := hg.usable
    generalize ns.sum = t
    clear hz hsz hres hal h1 hp hg hd
    induction h2 generalizing ns with
    | nil => cases hu; rfl
    | cons hab _ ih =>
      cases hu with
      | cons hpn hrest =>
        rename_i p q _ _ _ n ns
        rw [List.zip_cons_cons, List.zip_cons_cons, List.map_cons, List.map_cons]
        congr 1
        · obtain ⟨m, s⟩ := q
          obtain ⟨m', d⟩ := p
          obtain ⟨h1, h2⟩ := hab
          dsimp only at h1 h2
          subst h1
          cases d with
          | dict i => injection h2 with h2; subst h2; rfl
          | fields l => injection h2 with h2; subst h2; rfl
          | plain => cases h2
        · exact ih ns hrest
  · rw [List.all_eq_true]
    intro x hx
    have : x.1 ∈ ns.map Except.ok := by
      rw [← hres]; exact List.mem_map_of_mem hx
    obtain ⟨n, _, hn⟩ := List.mem_map.1 this
    rw [← hn]
    rfl

/-- What is refused: if a rank gets a catalog, the data of all ranks go together. -/
theorem new_ok_iff (args : List (Mem ρ × Data)) (kw : List (String × Nat)) (hd : Distinct args) (hne : args ≠ []) :
    (∃ x, Outcome.done x ∈ new args kw) ↔ ∃ ns, Good args ns := by
  constructor
  · intro h
    have hplain : ∀ p ∈ args, p.2 ≠ .plain := by
      intro p hp hpl
      obtain ⟨x, hx⟩ := h
      unfold new at hx
      rw [mapM_none args ⟨p, hp, hpl⟩] at hx
      obtain ⟨p, _, hp⟩ := List.mem_map.1 hx
      split at hp <;> cases hp
    obtain ⟨ms, h1, h2⟩ := mapM_sources args hplain
    obtain ⟨x, hx⟩ := h
    unfold new at hx
    rw [h1] at hx
    unfold afterGather at hx
    dsimp only at hx
    split at hx
    · rename_i hall
      rw [List.all_eq_true] at hall
      have hok : ∀ i q, ms[i]? = some q → ∃ n, alone ms i q.1 q.2 = .ok n := by
        intro i q hq
        have : (alone ms i q.1 q.2, q.1, q.2) ∈ ms.mapIdx fun r p => (alone ms r p.1 p.2, p.1, p.2) := by
          apply List.mem_of_getElem? (i := i)
          rw [List.getElem?_mapIdx, hq]
          rfl
        have := hall _ this
        dsimp only at this
        cases ha : alone ms i q.1 q.2 with
        | ok n => exact ⟨n, rfl⟩
        | error e => rw [ha] at this; cases this
      have hsz : ∀ q ∈ ms, ∃ n, sizeOf q.1 q.2 = .ok n := by
        intro q hq
        obtain ⟨i, hi⟩ := List.mem_iff_getElem?.1 hq
        obtain ⟨n, hn⟩ := hok i q hi
        unfold alone at hn
        split at hn
        · cases hn
        · exact ⟨n, hn⟩
      have h0 : ∀ q0, ms[0]? = some q0 → ∀ q ∈ ms, q.2.dtype q.1 = q0.2.dtype q0.1 := by
        intro q0 hq0 q hq
        obtain ⟨n, hn⟩ := hok 0 q0 hq0
        unfold alone at hn
        split at hn
        · cases hn
        · rename_i hc
          by_contra hne'
          apply hc
          refine ⟨rfl, List.any_eq_true.2 ⟨q, hq, by simpa using hne'⟩⟩
      have hsame : ∀ q ∈ ms, ∀ q' ∈ ms, q.2.dtype q.1 = q'.2.dtype q'.1 := by
        intro q hq q' hq'
        cases hm : ms[0]? with
        | none =>
          cases ms with
          | nil => cases hq
          | cons => cases hm
        | some q0 => rw [h0 q0 hm q hq, h0 q0 hm q' hq']
      have hpair : ∀ p ∈ args, ∃ q ∈ ms, q.1 = p.1 ∧ source p.2 = .ok q.2 := by
        intro p hp
        clear hsame h0 hsz hok hall hx h1 hd hne hplain
        induction h2 with
        | nil => cases hp
        | cons hab _ ih =>
          rcases List.mem_cons.1 hp with rfl | hp'
          · exact ⟨_, List.mem_cons_self, hab⟩
          · obtain ⟨q, hq, h⟩ := ih hp'
            exact ⟨q, List.mem_cons_of_mem _ hq, h⟩
      have husable : ∀ p ∈ args, ∃ n, ∃ l, fieldsOf p.1 p.2 = some l ∧ Usable p.1 l n := by
        intro p hp
        obtain ⟨q, hq, e1, e2⟩ := hpair p hp
        obtain ⟨n, hn⟩ := hsz q hq
        have hf := source_some p.1 p.2 q.2 e2
        refine ⟨n, _, hf, ?_⟩
        rw [e1] at hn
        exact (sizeOf_iff p.1 q.2 (hd p hp _ hf) n).1 hn
      have hns : ∃ ns, List.Forall₂ (fun (p : Mem ρ × Data) n => ∃ l, fieldsOf p.1 p.2 = some l ∧ Usable p.1 l n) args ns := by
        clear hpair hsame h0 hsz hok hall hx h1 hd hne h2 hplain
        induction args with
        | nil => exact ⟨[], .nil⟩
        | cons p args ih =>
          obtain ⟨n, hn⟩ := husable p List.mem_cons_self
          obtain ⟨ns, h⟩ := ih (fun q hq => husable q (List.mem_cons_of_mem _ hq))
          exact ⟨n :: ns, .cons hn h⟩
      obtain ⟨ns, hns⟩ := hns
      refine ⟨ns, hns, ?_⟩
      intro p hp q hq l l' hl hl' x
      obtain ⟨a, ha, e1, e2⟩ := hpair p hp
      obtain ⟨b, hb, e3, e4⟩ := hpair q hq
      have f1 := source_some p.1 p.2 a.2 e2
      have f2 := source_some q.1 q.2 b.2 e4
      rw [f1] at hl
      rw [f2] at hl'
      injection hl with hl
      injection hl' with hl'
      subst hl
      subst hl'
      have hdt := hsame a ha b hb
      rw [e1, e3] at hdt
      exact (dtype_eq_iff p.1 q.1 a.2 b.2 (hd p hp _ f1) (hd q hq _ f2)).1 hdt x
    · obtain ⟨p, _, hp⟩ := List.mem_map.1 hx
      split at hp <;> cases hp
  · rintro ⟨ns, hg⟩
    rw [new_spec args ns kw hd hg]
    cases args with
    | nil => exact absurd rfl hne
    | cons p args =>
      cases hg.usable with
      | cons hpn _ =>
        obtain ⟨l, hl, _⟩ := hpn
        rcases p with ⟨m, d⟩
        cases d with
        | plain => cases hl
        | dict i => exact ⟨_, List.mem_cons_self⟩
        | fields i => exact ⟨_, List.mem_cons_self⟩

end NBK.ArrObj
