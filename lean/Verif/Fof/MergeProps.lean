import Verif.Fof.Props
import Mathlib.Logic.Relation
import Mathlib.Algebra.Order.BigOperators.Group.List

/-!
# C36: the distributed friends-of-friends groups are the connected components
-/
namespace NBK.Fof
set_option linter.unusedSimpArgs false

/-- Two particles are connected by a chain of friends. -/
abbrev Conn (link : Nat → Nat → Prop) : Nat → Nat → Prop := Relation.EqvGen link

/-- Connected by a chain of friends within the particles `h` of one rank. -/
abbrev LocalConn (link : Nat → Nat → Prop) (h : List Nat) : Nat → Nat → Prop :=
  Relation.EqvGen fun u v => link u v ∧ u ∈ h ∧ v ∈ h

/-- What the labels of `kdcount.cluster.fof` on one rank with the particles `h` mean: the labels are dense, and two particles have
the same label iff a chain within the rank connects them. -/
structure KdLabels (link : Nat → Nat → Prop) (h L : List Nat) : Prop where
  len : L.length = h.length
  dense : ∃ m, ∀ x, x ∈ L ↔ x < m
  groups : ∀ (a b p q : Nat), h[a]? = some p → h[b]? = some q → (L[a]? = L[b]? ↔ LocalConn link h p q)

/-- A decomposition: `held` lists the particles received by each rank. Every particle is received by some rank, and so is every
pair of friends. -/
structure Decomposed (link : Nat → Nat → Prop) (held : List (List Nat)) (sizes : List Nat) (labels : List (List Nat)) : Prop where
  covers : ∀ p < sizes.sum, ∃ h ∈ held, p ∈ h
  inside : ∀ h ∈ held, ∀ p ∈ h, p < sizes.sum
  shares : ∀ p q, link p q → ∃ h ∈ held, p ∈ h ∧ q ∈ h
  local_labels : List.Forall₂ (KdLabels link) held labels

/-! ### lemmas -/

theorem filterMap_getElem? {α β : Type} (f : α → Option β) (l : List α) (h : ∀ x ∈ l, (f x).isSome) (k : Nat) :
    (l.filterMap f)[k]? = l[k]?.bind f := by
  induction l generalizing k with
  | nil => simp
  | cons x l ih =>
    obtain ⟨y, hy⟩ := Option.isSome_iff_exists.mp (h x (by simp))
    rw [List.filterMap_cons_some hy]
    cases k with
    | zero => simp [hy]
    | succ k => simpa using ih (fun x hx => h x (by simp [hx])) k

theorem mergeRank_spec {argsort : List Nat → List Nat} (hA : IsArgsort argsort) (m new : List Nat)
    (hlen : new.length = m.length) :
    ∃ f : Nat → Nat, mergeRank argsort m new = .ok (m.map f) ∧
      ∀ x ∈ m, ((∀ y, (x, y) ∈ m.zip new → y = x) ∧ f x = x) ∨ ∃ y, (x, y) ∈ m.zip new ∧ y ≠ x ∧ f x = y := by
  obtain ⟨mg, hmg⟩ : ∃ mg, mg = (m.zip new).filter fun a => a.2 ≠ a.1 := ⟨_, rfl⟩
  obtain ⟨arg, harg⟩ : ∃ arg, arg = argsort (mg.map Prod.fst) := ⟨_, rfl⟩
  have hlt : ∀ k ∈ arg, k < mg.length := by
    intro k hk; rw [harg] at hk; simpa using argsort_lt hA _ k hk
  have hs1 : ∀ k ∈ arg, ((mg.map Prod.fst)[k]?).isSome := by
    intro k hk; rw [List.getElem?_eq_getElem (by simpa using hlt k hk)]; rfl
  have hs2 : ∀ k ∈ arg, ((mg.map Prod.snd)[k]?).isSome := by
    intro k hk; rw [List.getElem?_eq_getElem (by simpa using hlt k hk)]; rfl
  obtain ⟨s, hs⟩ : ∃ s, s = arg.filterMap ((mg.map Prod.fst)[·]?) := ⟨_, rfl⟩
  obtain ⟨b, hb⟩ : ∃ b, b = arg.filterMap ((mg.map Prod.snd)[·]?) := ⟨_, rfl⟩
  have hmr : mergeRank argsort m new = replacesorted m s b := by
    unfold mergeRank
    dsimp only
    rw [← hmg, ← harg, takeAt_ok _ _ (fun k hk => by simpa using hlt k hk),
      takeAt_ok _ _ (fun k hk => by simpa using hlt k hk), ← hs, ← hb]
    rfl
  have hsl : s.length = arg.length := by rw [hs, filterMap_length_all _ _ hs1]
  have hbl : b.length = arg.length := by rw [hb, filterMap_length_all _ _ hs2]
  have hsk : ∀ k : Nat, s[k]? = arg[k]?.bind ((mg.map Prod.fst)[·]?) := fun k => by rw [hs, filterMap_getElem? _ _ hs1]
  have hbk : ∀ k : Nat, b[k]? = arg[k]?.bind ((mg.map Prod.snd)[·]?) := fun k => by rw [hb, filterMap_getElem? _ _ hs2]
  have hsorted : s.Pairwise (· ≤ ·) := by
    have h := hA.sorted (mg.map Prod.fst)
    rw [← harg] at h
    rw [hs, List.pairwise_filterMap]
    refine h.imp fun {i j} hij => ?_
    intro x hx y hy
    simpa [List.getD_eq_getElem?_getD, hx, hy] using hij
  have hpair : ∀ (k x y : Nat), s[k]? = some x → b[k]? = some y → (x, y) ∈ mg := by
    intro k x y h1 h2
    rw [hsk] at h1; rw [hbk] at h2
    cases hk : arg[k]? with
    | none => rw [hk] at h1; cases h1
    | some j =>
      rw [hk] at h1 h2
      simp only [Option.bind_some, List.getElem?_map, Option.map_eq_some_iff] at h1 h2
      obtain ⟨z, hz, rfl⟩ := h1
      obtain ⟨z', hz', rfl⟩ := h2
      rw [hz] at hz'; obtain rfl := Option.some.inj hz'
      exact List.mem_of_getElem? hz
  have hin : ∀ x y, (x, y) ∈ mg → x ∈ s := by
    intro x y hxy
    obtain ⟨j, hj, e⟩ := List.getElem_of_mem hxy
    have hja : j ∈ arg := by
      rw [harg]; exact (hA.perm _).mem_iff.mpr (by simpa using hj)
    rw [hs, List.mem_filterMap]
    exact ⟨j, hja, by rw [List.getElem?_map, List.getElem?_eq_getElem hj, e]; rfl⟩
  obtain ⟨r, hr, hrl, hspec⟩ := replacesorted_spec m s b hsorted (by omega)
  refine ⟨fun x => if x ∈ s then b.getD (searchLeft s x) 0 else x, ?_, ?_⟩
  · rw [hmr, hr]
    congr 1
    apply List.ext_getElem?
    intro i
    rw [List.getElem?_map]
    cases hi : m[i]? with
    | none =>
      rw [List.getElem?_eq_none_iff] at hi
      rw [List.getElem?_eq_none (by omega)]; rfl
    | some x =>
      obtain ⟨h1, h2⟩ := hspec i x hi
      by_cases hx : x ∈ s
      · obtain ⟨hf, hmin⟩ := searchLeft_first s x hsorted hx
        rw [h2 _ hf hmin]
        obtain ⟨hlt', -⟩ := List.getElem?_eq_some_iff.mp hf
        rw [Option.map_some, if_pos hx, List.getD_eq_getElem?_getD, List.getElem?_eq_getElem (by omega)]; rfl
      · rw [h1 hx, Option.map_some, if_neg hx]
  · intro x _
    by_cases hx : x ∈ s
    · right
      obtain ⟨hf, hmin⟩ := searchLeft_first s x hsorted hx
      obtain ⟨hlt', -⟩ := List.getElem?_eq_some_iff.mp hf
      have hbb : b[searchLeft s x]? = some (b[searchLeft s x]'(by omega)) := List.getElem?_eq_getElem (by omega)
      have hm' := hpair _ _ _ hf hbb
      rw [hmg, List.mem_filter] at hm'
      refine ⟨_, hm'.1, by simpa using hm'.2, ?_⟩
      simp only [if_pos hx, List.getD_eq_getElem?_getD, hbb, Option.getD_some]
    · left
      refine ⟨fun y hy => ?_, if_neg hx⟩
      by_contra hne
      exact hx (hin x y (by rw [hmg, List.mem_filter]; exact ⟨hy, by simpa using hne⟩))

/-- The state of one rank: `m` are the labels of the particles `h`. -/
structure RankInv (link : Nat → Nat → Prop) (h m : List Nat) : Prop where
  len : m.length = h.length
  le : ∀ p x, (p, x) ∈ h.zip m → x ≤ p
  conn : ∀ p x, (p, x) ∈ h.zip m → Conn link x p
  same : ∀ p x q y, (p, x) ∈ h.zip m → (q, y) ∈ h.zip m → LocalConn link h p q → x = y

/-- All pairs of a particle and one of its labels. -/
def allPairs (held M : List (List Nat)) : List (Nat × Nat) := (held.zip M).flatMap fun hm => hm.1.zip hm.2

theorem reduce_min_spec (l : List Nat) (x : Nat) (h : reduce min l = some x) : x ∈ l ∧ ∀ y ∈ l, x ≤ y := by
  cases l with
  | nil => cases h
  | cons a l =>
    have h' := Option.some.inj h
    clear h
    induction l generalizing a with
    | nil => simp only [List.foldl_nil] at h'; subst h'; simp
    | cons b l ih =>
      simp only [List.foldl_cons] at h'
      obtain ⟨h1, h2⟩ := ih (min a b) h'
      refine ⟨?_, ?_⟩
      · rcases List.mem_cons.mp h1 with h1 | h1
        · rcases Nat.le_total a b with hab | hab
          · rw [h1, Nat.min_eq_left hab]; simp
          · rw [h1, Nat.min_eq_right hab]; simp
        · simp [h1]
      · intro y hy
        have h3 := h2 (min a b) (by simp)
        rcases List.mem_cons.mp hy with rfl | hy
        · omega
        · rcases List.mem_cons.mp hy with rfl | hy
          · omega
          · exact h2 y (by simp [hy])

theorem mem_copies (held M : List (List Nat)) (p x : Nat) : x ∈ copies held M p ↔ (p, x) ∈ allPairs held M := by
  unfold copies allPairs
  rw [List.mem_filterMap]
  constructor
  · rintro ⟨⟨q, y⟩, h, e⟩
    by_cases hq : q = p
    · subst hq; simp only [if_true, Option.some.injEq] at e; subst e; exact h
    · simp [hq] at e
  · intro h; exact ⟨(p, x), h, by simp⟩

/-- The smallest label of `p` over all ranks. -/
def best (held M : List (List Nat)) (p : Nat) : Nat := (reduce min (copies held M p)).getD 0

theorem best_spec (held M : List (List Nat)) (p x : Nat) (h : (p, x) ∈ allPairs held M) :
    reduce min (copies held M p) = some (best held M p) ∧ (p, best held M p) ∈ allPairs held M ∧
      ∀ y, (p, y) ∈ allPairs held M → best held M p ≤ y := by
  obtain ⟨y, hy⟩ := reduce_isSome min (copies held M p) (List.ne_nil_of_mem ((mem_copies held M p x).mpr h))
  have e : best held M p = y := by unfold best; rw [hy]; rfl
  obtain ⟨h1, h2⟩ := reduce_min_spec _ _ hy
  rw [e]
  exact ⟨hy, (mem_copies held M p y).mp h1, fun z hz => h2 z ((mem_copies held M p z).mpr hz)⟩

theorem pair_of_forall2 {R : List Nat → List Nat → Prop} {held M : List (List Nat)} (hf : List.Forall₂ R held M)
    (hl : ∀ h m, R h m → m.length = h.length) (h : List Nat) (hh : h ∈ held) :
    ∃ m, (h, m) ∈ held.zip M ∧ R h m ∧ ∀ p ∈ h, ∃ x, (p, x) ∈ h.zip m := by
  induction hf with
  | nil => cases hh
  | @cons a b l₁ l₂ hab hrest ih =>
    rcases List.mem_cons.mp hh with rfl | hh
    · refine ⟨b, by simp, hab, fun p hp => ?_⟩
      obtain ⟨i, hi, rfl⟩ := List.getElem_of_mem hp
      have hlen := hl _ _ hab
      refine ⟨b[i]'(by omega), ?_⟩
      have : i < (h.zip b).length := by simp; omega
      have h' := List.getElem_mem this
      rwa [List.getElem_zip] at h'
    · obtain ⟨m, h1, h2, h3⟩ := ih hh
      exact ⟨m, by simp [h1], h2, h3⟩

theorem forall2_zip {R : List Nat → List Nat → Prop} {held M : List (List Nat)} (hf : List.Forall₂ R held M) :
    ∀ h m, (h, m) ∈ held.zip M → R h m := by
  induction hf with
  | nil => intro h m hm; cases hm
  | @cons a b l₁ l₂ hab hrest ih =>
    intro h m hm
    rw [List.zip_cons_cons] at hm
    rcases List.mem_cons.mp hm with e | hm
    · obtain ⟨rfl, rfl⟩ := Prod.mk.inj e; exact hab
    · exact ih h m hm

theorem mem_allPairs (held M : List (List Nat)) (p x : Nat) :
    (p, x) ∈ allPairs held M ↔ ∃ h m, (h, m) ∈ held.zip M ∧ (p, x) ∈ h.zip m := by
  unfold allPairs
  rw [List.mem_flatMap]
  constructor
  · rintro ⟨⟨h, m⟩, h1, h2⟩; exact ⟨h, m, h1, h2⟩
  · rintro ⟨h, m, h1, h2⟩; exact ⟨(h, m), h1, h2⟩

theorem gatherMin_eq {link : Nat → Nat → Prop} {held M labels : List (List Nat)} {sizes : List Nat}
    (hd : Decomposed link held sizes labels) (hI : List.Forall₂ (RankInv link) held M) :
    gatherMin held sizes M = .ok (cut sizes ((List.range sizes.sum).map (best held M))) := by
  unfold gatherMin
  rw [mapM_ok _ (best held M)]
  · rfl
  · intro p hp
    obtain ⟨h, hh, hph⟩ := hd.covers p (by simpa using hp)
    obtain ⟨m, h1, -, h3⟩ := pair_of_forall2 hI (fun h m hr => hr.len) h hh
    obtain ⟨x, hx⟩ := h3 p hph
    rw [(best_spec held M p x ((mem_allPairs held M p x).mpr ⟨h, m, h1, hx⟩)).1]

theorem cut_flatten {α : Type} (sizes : List Nat) (l : List α) (h : l.length = sizes.sum) : (cut sizes l).flatten = l := by
  unfold cut
  rw [NBK.Comm.windows_flatten, ← h, List.take_length]

theorem exchange_eq (held : List (List Nat)) (x : List (List Nat)) (n : Nat) (g : Nat → Nat)
    (hx : x.flatten = (List.range n).map g) (hin : ∀ h ∈ held, ∀ p ∈ h, p < n) :
    exchange held x = .ok (held.map fun h => h.map g) := by
  unfold exchange
  apply mapM_ok
  intro h hh
  rw [hx, takeAt_ok _ _ fun p hp => by simpa using hin h hh p hp]
  congr 1
  have := hin h hh
  clear hh
  induction h with
  | nil => rfl
  | cons p h ih =>
    have hp : ((List.range n).map g)[p]? = some (g p) := by
      rw [List.getElem?_map, List.getElem?_range (this p (by simp))]; rfl
    rw [List.filterMap_cons_some hp, ih fun q hq => this q (by simp [hq])]
    rfl

theorem pids_flatten (sizes : List Nat) : (pids sizes).flatten = List.range sizes.sum := by
  have : pids sizes = cut sizes (List.range sizes.sum) := by
    unfold pids cut
    apply List.ext_getElem
    · simp
    · intro r h1 h2
      have hr : r < sizes.length := by simpa using h1
      rw [List.getElem_mapIdx, List.getElem_mapIdx]
      have hsum : (sizes.take r).sum + sizes[r] ≤ sizes.sum := by
        have h3 := List.sum_take_add_sum_drop sizes r
        rw [List.drop_eq_getElem_cons hr, List.sum_cons] at h3
        omega
      apply List.ext_getElem
      · simp; omega
      · intro i h3 h4; simp; omega
  rw [this, cut_flatten _ _ (by simp)]

theorem mem_zip_map {α β γ : Type} (l₁ : List α) (l₂ : List β) (F : α → γ) (b : β) (c : γ) :
    (b, c) ∈ l₂.zip (l₁.map F) ↔ ∃ a, (a, b) ∈ l₁.zip l₂ ∧ c = F a := by
  induction l₁ generalizing l₂ with
  | nil => simp
  | cons a l ih =>
    cases l₂ with
    | nil => simp
    | cons b' l' =>
      simp only [List.map_cons, List.zip_cons_cons, List.mem_cons, ih l', Prod.mk.injEq]
      constructor
      · rintro (⟨rfl, rfl⟩ | ⟨a', h, rfl⟩)
        · exact ⟨a, Or.inl ⟨rfl, rfl⟩, rfl⟩
        · exact ⟨a', Or.inr h, rfl⟩
      · rintro ⟨a', (⟨rfl, rfl⟩ | h), rfl⟩
        · exact Or.inl ⟨rfl, rfl⟩
        · exact Or.inr ⟨a', h, rfl⟩

theorem mem_zip_map_right {α β γ : Type} (l₁ : List α) (l₂ : List β) (f : β → γ) (a : α) (c : γ) :
    (a, c) ∈ l₁.zip (l₂.map f) ↔ ∃ b, (a, b) ∈ l₁.zip l₂ ∧ c = f b := by
  rw [List.zip_map_right, List.mem_map]
  constructor
  · rintro ⟨⟨a', b⟩, h, e⟩
    simp only [Prod.map_apply, id_eq, Prod.mk.injEq] at e
    obtain ⟨rfl, rfl⟩ := e
    exact ⟨b, h, rfl⟩
  · rintro ⟨b, h, rfl⟩
    exact ⟨(a, b), h, rfl⟩

theorem sum_map_le (f : Nat → Nat) (m : List Nat) (h : ∀ x ∈ m, f x ≤ x) :
    (m.map f).sum ≤ m.sum ∧ ((m.map f).sum = m.sum → ∀ x ∈ m, f x = x) := by
  induction m with
  | nil => simp
  | cons a m ih =>
    obtain ⟨h1, h2⟩ := ih fun x hx => h x (by simp [hx])
    have ha := h a (by simp)
    simp only [List.map_cons, List.sum_cons]
    refine ⟨by omega, fun e x hx => ?_⟩
    rcases List.mem_cons.mp hx with rfl | hx
    · omega
    · exact h2 (by omega) x hx

theorem mem_zip_of_right {h m : List Nat} (hl : m.length = h.length) {x : Nat} (hx : x ∈ m) : ∃ p, (p, x) ∈ h.zip m := by
  obtain ⟨i, hi, rfl⟩ := List.getElem_of_mem hx
  have : i < (h.zip m).length := by simp; omega
  have h' := List.getElem_mem this
  rw [List.getElem_zip] at h'
  exact ⟨_, h'⟩

theorem rank_step {link : Nat → Nat → Prop} {argsort : List Nat → List Nat} (hA : IsArgsort argsort) (g : Nat → Nat)
    (h m : List Nat) (hI : RankInv link h m) (hg : ∀ p x, (p, x) ∈ h.zip m → g p ≤ x ∧ Conn link (g p) p) :
    ∃ m', mergeRank argsort m (h.map g) = .ok m' ∧ RankInv link h m' ∧ m'.sum ≤ m.sum ∧
      (m'.sum = m.sum → ∀ p x, (p, x) ∈ h.zip m → g p = x) := by
  obtain ⟨f, hf, hfs⟩ := mergeRank_spec hA m (h.map g) (by simp [hI.len])
  have hz : ∀ x y, (x, y) ∈ m.zip (h.map g) ↔ ∃ p, (p, x) ∈ h.zip m ∧ y = g p := fun x y => mem_zip_map h m g x y
  have hle : ∀ x ∈ m, f x ≤ x := by
    intro x hx
    rcases hfs x hx with ⟨-, e⟩ | ⟨y, hy, -, e⟩
    · omega
    · obtain ⟨p, hp, rfl⟩ := (hz x y).mp hy
      rw [e]; exact (hg p x hp).1
  have hmem : ∀ p x, (p, x) ∈ h.zip m → x ∈ m := fun p x hp => (List.of_mem_zip hp).2
  obtain ⟨hs1, hs2⟩ := sum_map_le f m hle
  refine ⟨m.map f, hf, ⟨by simp [hI.len], ?_, ?_, ?_⟩, hs1, ?_⟩
  · intro p x' hp
    obtain ⟨x, hx, rfl⟩ := (mem_zip_map_right h m f p x').mp hp
    exact le_trans (hle x (hmem p x hx)) (hI.le p x hx)
  · intro p x' hp
    obtain ⟨x, hx, rfl⟩ := (mem_zip_map_right h m f p x').mp hp
    rcases hfs x (hmem p x hx) with ⟨-, e⟩ | ⟨y, hy, -, e⟩
    · rw [e]; exact hI.conn p x hx
    · obtain ⟨q, hq, rfl⟩ := (hz x y).mp hy
      rw [e]
      exact ((hg q x hq).2.trans _ _ _ ((hI.conn q x hq).symm _ _)).trans _ _ _ (hI.conn p x hx)
  · intro p x' q y' hp hq hc
    obtain ⟨x, hx, rfl⟩ := (mem_zip_map_right h m f p x').mp hp
    obtain ⟨y, hy, rfl⟩ := (mem_zip_map_right h m f q y').mp hq
    rw [hI.same p x q y hx hy hc]
  · intro e p x hp
    have hx := hs2 e x (hmem p x hp)
    rcases hfs x (hmem p x hp) with ⟨h1, -⟩ | ⟨y, -, hne, e'⟩
    · exact h1 (g p) ((hz x (g p)).mpr ⟨p, hp, rfl⟩)
    · omega

theorem ranks_step {link : Nat → Nat → Prop} {argsort : List Nat → List Nat} (hA : IsArgsort argsort) (g : Nat → Nat)
    {held M : List (List Nat)} (hI : List.Forall₂ (RankInv link) held M)
    (hg : ∀ p x, (p, x) ∈ allPairs held M → g p ≤ x ∧ Conn link (g p) p) :
    ∃ M', ((M.zip (held.map fun h => h.map g)).mapM fun mn => mergeRank argsort mn.1 mn.2) = .ok M' ∧
      List.Forall₂ (RankInv link) held M' ∧ M'.flatten.sum ≤ M.flatten.sum ∧
      (M'.flatten.sum = M.flatten.sum → ∀ p x, (p, x) ∈ allPairs held M → g p = x) := by
  induction hI with
  | nil => exact ⟨[], rfl, .nil, le_refl _, fun _ p x h => by simp [allPairs] at h⟩
  | @cons h m held M hr hrest ih =>
    have hcons : ∀ p x, (p, x) ∈ allPairs (h :: held) (m :: M) ↔ (p, x) ∈ h.zip m ∨ (p, x) ∈ allPairs held M := by
      intro p x; simp [allPairs]
    obtain ⟨m', h1, h2, h3, h4⟩ := rank_step hA g h m hr fun p x hp => hg p x ((hcons p x).mpr (Or.inl hp))
    obtain ⟨M', i1, i2, i3, i4⟩ := ih fun p x hp => hg p x ((hcons p x).mpr (Or.inr hp))
    refine ⟨m' :: M', ?_, .cons h2 i2, ?_, ?_⟩
    · rw [List.map_cons, List.zip_cons_cons, List.mapM_cons]
      dsimp only
      rw [h1, i1]
      rfl
    · simp only [List.flatten_cons, List.sum_append]; omega
    · intro e p x hp
      simp only [List.flatten_cons, List.sum_append] at e
      rcases (hcons p x).mp hp with hp | hp
      · exact h4 (by omega) p x hp
      · exact i4 (by omega) p x hp

theorem all_eq_iff (g : Nat → Nat) (held M : List (List Nat)) :
    ((M.zip (held.map fun h => h.map g)).all fun mn => (mn.1.zip mn.2).all fun a => a.2 == a.1) = true ↔
      ∀ p x, (p, x) ∈ allPairs held M → g p = x := by
  simp only [List.all_eq_true, beq_iff_eq]
  constructor
  · intro h p x hp
    obtain ⟨hh, m, h1, h2⟩ := (mem_allPairs held M p x).mp hp
    exact h (m, hh.map g) ((mem_zip_map held M _ m _).mpr ⟨hh, h1, rfl⟩) (x, g p)
      ((mem_zip_map hh m g x (g p)).mpr ⟨p, h2, rfl⟩)
  · rintro h ⟨m, nw⟩ hm ⟨x, y⟩ hxy
    obtain ⟨hh, h1, rfl⟩ := (mem_zip_map held M _ m nw).mp hm
    obtain ⟨p, h2, rfl⟩ := (mem_zip_map hh m g x y).mp hxy
    exact h p x ((mem_allPairs held M p x).mpr ⟨hh, m, h1, h2⟩)

/-- `x` is the smallest particle connected to `p`. -/
def IsRoot (link : Nat → Nat → Prop) (p x : Nat) : Prop := Conn link x p ∧ ∀ q, Conn link q p → x ≤ q

theorem fixpoint_root {link : Nat → Nat → Prop} {held M labels : List (List Nat)} {sizes : List Nat}
    (hd : Decomposed link held sizes labels) (hI : List.Forall₂ (RankInv link) held M)
    (hfix : ∀ p x, (p, x) ∈ allPairs held M → best held M p = x) (p : Nat) (hp : p < sizes.sum) :
    IsRoot link p (best held M p) := by
  have hlink : ∀ u v, link u v → best held M u = best held M v := by
    intro u v huv
    obtain ⟨h, hh, hu, hv⟩ := hd.shares u v huv
    obtain ⟨m, h1, h2, h3⟩ := pair_of_forall2 hI (fun h m hr => hr.len) h hh
    obtain ⟨x, hx⟩ := h3 u hu
    obtain ⟨y, hy⟩ := h3 v hv
    rw [hfix u x ((mem_allPairs held M u x).mpr ⟨h, m, h1, hx⟩), hfix v y ((mem_allPairs held M v y).mpr ⟨h, m, h1, hy⟩)]
    exact h2.same u x v y hx hy (.rel _ _ ⟨huv, hu, hv⟩)
  have hconn : ∀ u v, Conn link u v → best held M u = best held M v := by
    intro u v h
    induction h with
    | rel u v h => exact hlink u v h
    | refl u => rfl
    | symm u v _ ih => exact ih.symm
    | trans u v w _ _ ih1 ih2 => rw [ih1, ih2]
  have hpart : ∀ u v, Conn link u v → (u < sizes.sum ↔ v < sizes.sum) := by
    intro u v h
    induction h with
    | rel u v h =>
      obtain ⟨hh, h1, h2, h3⟩ := hd.shares u v h
      exact ⟨fun _ => hd.inside hh h1 v h3, fun _ => hd.inside hh h1 u h2⟩
    | refl u => rfl
    | symm u v _ ih => exact ih.symm
    | trans u v w _ _ ih1 ih2 => rw [ih1, ih2]
  have hval : ∀ q < sizes.sum, ∃ h m, (h, m) ∈ held.zip M ∧ (q, best held M q) ∈ h.zip m := by
    intro q hq
    obtain ⟨h, hh, hqh⟩ := hd.covers q hq
    obtain ⟨m, h1, -, h3⟩ := pair_of_forall2 hI (fun h m hr => hr.len) h hh
    obtain ⟨x, hx⟩ := h3 q hqh
    have := hfix q x ((mem_allPairs held M q x).mpr ⟨h, m, h1, hx⟩)
    exact ⟨h, m, h1, by rw [this]; exact hx⟩
  obtain ⟨h, m, h1, h2⟩ := hval p hp
  refine ⟨(forall2_zip hI h m h1).conn p _ h2, fun q hq => ?_⟩
  obtain ⟨h', m', h1', h2'⟩ := hval q ((hpart q p hq).mpr hp)
  rw [← hconn q p hq]
  exact (forall2_zip hI h' m' h1').le q _ h2'

theorem mergeLoop_root {link : Nat → Nat → Prop} {argsort : List Nat → List Nat} (hA : IsArgsort argsort)
    {held labels : List (List Nat)} {sizes : List Nat} (hd : Decomposed link held sizes labels) (s : Nat) :
    ∀ M, M.flatten.sum = s → List.Forall₂ (RankInv link) held M →
      ∃ (fuel₀ : Nat) (g : Nat → Nat), (∀ fuel ≥ fuel₀, mergeLoop argsort held sizes fuel M =
          some (.ok (cut sizes ((List.range sizes.sum).map g)))) ∧ ∀ p < sizes.sum, IsRoot link p (g p) := by
  induction s using Nat.strong_induction_on with
  | _ s ih =>
    intro M hs hI
    have hgat := gatherMin_eq hd hI
    have hex : exchange held (cut sizes ((List.range sizes.sum).map (best held M))) =
        .ok (held.map fun h => h.map (best held M)) :=
      exchange_eq held _ sizes.sum _ (cut_flatten _ _ (by simp)) hd.inside
    have hnew : (gatherMin held sizes M >>= exchange held) = .ok (held.map fun h => h.map (best held M)) := by
      rw [hgat]; exact hex
    by_cases hall : ∀ p x, (p, x) ∈ allPairs held M → best held M p = x
    · refine ⟨1, best held M, fun fuel hfuel => ?_, fixpoint_root hd hI hall⟩
      obtain ⟨f, rfl⟩ : ∃ f, fuel = f + 1 := ⟨fuel - 1, by omega⟩
      unfold mergeLoop
      rw [hnew]
      dsimp only
      rw [if_pos ((all_eq_iff _ held M).mpr hall), hgat]
    · obtain ⟨M', h1, h2, h3, h4⟩ := ranks_step hA (best held M) hI (by
        intro p x hp
        obtain ⟨-, h1, h2⟩ := best_spec held M p x hp
        obtain ⟨h, m, h3, h4⟩ := (mem_allPairs held M p _).mp h1
        exact ⟨h2 x hp, (forall2_zip hI h m h3).conn p _ h4⟩)
      have hlt : M'.flatten.sum < s := by
        rcases Nat.lt_or_ge M'.flatten.sum s with h | h
        · exact h
        · exact absurd (h4 (by omega)) hall
      obtain ⟨f₀, g, hf, hroot⟩ := ih _ hlt M' rfl h2
      refine ⟨f₀ + 1, g, fun fuel hfuel => ?_, hroot⟩
      obtain ⟨f, rfl⟩ : ∃ f, fuel = f + 1 := ⟨fuel - 1, by omega⟩
      rw [← hf f (by omega)]
      conv_lhs => unfold mergeLoop
      rw [hnew]
      dsimp only
      rw [if_neg (fun h => hall ((all_eq_iff _ held M).mp h)), h1]

theorem members_mem (L h : List Nat) (i x : Nat) :
    x ∈ members L h i ↔ ∃ b : Nat, L[b]? = some i ∧ h[b]? = some x := by
  unfold members
  rw [List.mem_filterMap]
  constructor
  · rintro ⟨b, hb, e⟩
    exact ⟨b, by simpa using (List.mem_filter.mp hb).2, e⟩
  · rintro ⟨b, hb, e⟩
    refine ⟨b, List.mem_filter.mpr ⟨?_, by simpa using hb⟩, e⟩
    obtain ⟨h, -⟩ := List.getElem?_eq_some_iff.mp hb
    simpa using h

theorem localMinid_inv {link : Nat → Nat → Prop} {argsort : List Nat → List Nat} (hA : IsArgsort argsort) (h L : List Nat)
    (hk : KdLabels link h L) : ∃ m, localMinid argsort L h = .ok m ∧ RankInv link h m := by
  obtain ⟨n, hn⟩ := hk.dense
  obtain ⟨r, h1, h2, h3⟩ := equivClass_sparse argsort hA min (fun a b => Nat.min_comm a b) (fun a b c => Nat.min_assoc a b c)
    L (List.range n) h hk.len.symm List.pairwise_lt_range (by intro x; rw [List.mem_range, hn])
  have hlt : ∀ x ∈ L, x < r.length := by
    intro x hx; rw [h2, List.length_range]; exact (hn x).mp hx
  have hsome : ∀ x ∈ L, (r[x]?).isSome := fun x hx => by rw [List.getElem?_eq_getElem (hlt x hx)]; rfl
  have hml : (L.filterMap (r[·]?)).length = h.length := by rw [filterMap_length_all _ _ hsome, hk.len]
  have hidx : ∀ p x, (p, x) ∈ h.zip (L.filterMap (r[·]?)) →
      ∃ a l : Nat, h[a]? = some p ∧ L[a]? = some l ∧ reduce min (members L h l) = some x := by
    intro p x hp
    obtain ⟨a, ha, e⟩ := List.getElem_of_mem hp
    rw [List.getElem_zip, Prod.mk.injEq] at e
    have hal : a < h.length := by simp at ha; omega
    have haL : a < L.length := by rw [hk.len]; exact hal
    have hx : (L.filterMap (r[·]?))[a]? = some x := by rw [List.getElem?_eq_getElem (by omega), e.2]
    rw [filterMap_getElem? _ _ hsome, List.getElem?_eq_getElem haL, Option.bind_some] at hx
    refine ⟨a, L[a], by rw [List.getElem?_eq_getElem hal, e.1], List.getElem?_eq_getElem haL, ?_⟩
    rw [← h3 L[a] L[a] (by rw [List.getElem?_range ((hn _).mp (List.getElem_mem haL))]), hx]
  refine ⟨L.filterMap (r[·]?), ?_, hml, ?_, ?_, ?_⟩
  · unfold localMinid
    rw [h1]
    exact takeAt_ok r L hlt
  · intro p x hp
    obtain ⟨a, l, ha, hl, hr⟩ := hidx p x hp
    exact (reduce_min_spec _ _ hr).2 p ((members_mem L h l p).mpr ⟨a, hl, ha⟩)
  · intro p x hp
    obtain ⟨a, l, ha, hl, hr⟩ := hidx p x hp
    obtain ⟨b, hb, hbx⟩ := (members_mem L h l x).mp (reduce_min_spec _ _ hr).1
    have := (hk.groups b a x p hbx ha).mp (by rw [hl, hb])
    exact this.mono fun u v h => h.1
  · intro p x q y hp hq hc
    obtain ⟨a, l, ha, hl, hr⟩ := hidx p x hp
    obtain ⟨b, l', hb, hl', hr'⟩ := hidx q y hq
    have := (hk.groups a b p q ha hb).mpr hc
    rw [hl, hl'] at this
    obtain rfl := Option.some.inj this
    exact Option.some.inj (hr.symm.trans hr')

theorem fofLocal_inv {link : Nat → Nat → Prop} {argsort : List Nat → List Nat} (hA : IsArgsort argsort)
    {held labels : List (List Nat)} {sizes : List Nat} (hd : Decomposed link held sizes labels) :
    ∃ M, fofLocal argsort held sizes labels = .ok M ∧ List.Forall₂ (RankInv link) held M := by
  have hex : exchange held (pids sizes) = .ok held := by
    rw [exchange_eq held _ sizes.sum id (by rw [pids_flatten]; simp) hd.inside]; simp
  have key : ∀ held labels : List (List Nat), List.Forall₂ (KdLabels link) held labels →
      ∃ M, ((labels.zip held).mapM fun lp => localMinid argsort lp.1 lp.2) = .ok M ∧ List.Forall₂ (RankInv link) held M := by
    intro held labels hf
    induction hf with
    | nil => exact ⟨[], rfl, .nil⟩
    | @cons h L held labels hk _ ih =>
      obtain ⟨m, h1, h2⟩ := localMinid_inv hA h L hk
      obtain ⟨M, i1, i2⟩ := ih
      refine ⟨m :: M, ?_, .cons h2 i2⟩
      rw [List.zip_cons_cons, List.mapM_cons]
      dsimp only
      rw [h1, i1]
      rfl
  obtain ⟨M, h1, h2⟩ := key held labels hd.local_labels
  refine ⟨M, ?_, h2⟩
  unfold fofLocal
  rw [hex]
  exact h1

/-- **C36**: the merging ends, and the label of every particle is the smallest id in its connected component; the labels come on
the ranks of the particles. -/
theorem fof_components (link : Nat → Nat → Prop) (argsort : List Nat → List Nat) (hA : IsArgsort argsort)
    (held labels : List (List Nat)) (sizes : List Nat) (hd : Decomposed link held sizes labels) :
    ∃ (fuel₀ : Nat) (res : List (List Nat)), (∀ fuel ≥ fuel₀, fof argsort held sizes labels fuel = some (.ok res)) ∧
      res.map List.length = sizes ∧
      ∀ p < sizes.sum, ∃ x, res.flatten[p]? = some x ∧ Conn link x p ∧ ∀ q, Conn link q p → x ≤ q := by
  obtain ⟨M, hM, hI⟩ := fofLocal_inv hA hd
  obtain ⟨f₀, g, hf, hroot⟩ := mergeLoop_root hA hd _ M rfl hI
  refine ⟨f₀, cut sizes ((List.range sizes.sum).map g), fun fuel hfuel => ?_, ?_, ?_⟩
  · unfold fof
    rw [hM]
    exact hf fuel hfuel
  · unfold cut
    apply List.ext_getElem
    · simp
    · intro r h1 h2
      have h3 := List.sum_take_add_sum_drop sizes r
      rw [List.drop_eq_getElem_cons h2, List.sum_cons] at h3
      simp; omega
  · intro p hp
    rw [cut_flatten _ _ (by simp), List.getElem?_map, List.getElem?_range (by simpa using hp)]
    exact ⟨g p, rfl, hroot p hp⟩

theorem mergeLoop_mono (argsort : List Nat → List Nat) (held : List (List Nat)) (sizes : List Nat) (fuel : Nat) :
    ∀ M r, mergeLoop argsort held sizes fuel M = some r → ∀ f ≥ fuel, mergeLoop argsort held sizes f M = some r := by
  induction fuel with
  | zero => intro M r h; cases h
  | succ n ih =>
    intro M r h f hf
    obtain ⟨f', rfl⟩ : ∃ f', f = f' + 1 := ⟨f - 1, by omega⟩
    unfold mergeLoop at h ⊢
    cases hnew : gatherMin held sizes M >>= exchange held with
    | error e => rw [hnew] at h; exact h
    | ok new =>
      rw [hnew] at h
      dsimp only at h ⊢
      by_cases hall : ((List.zip M new).all fun mn => (mn.1.zip mn.2).all fun a => a.2 == a.1) = true
      · rw [if_pos hall] at h ⊢; exact h
      · rw [if_neg hall] at h ⊢
        cases hm : (M.zip new).mapM fun mn => mergeRank argsort mn.1 mn.2 with
        | error e => rw [hm] at h; exact h
        | ok M' => rw [hm] at h; exact ih M' r h f' (by omega)

/-- Any number of turns which is enough gives the result of `fof_components`: the label of a particle is the smallest id of its
component. -/
theorem fof_root (link : Nat → Nat → Prop) (argsort : List Nat → List Nat) (hA : IsArgsort argsort)
    (held labels : List (List Nat)) (sizes : List Nat) (hd : Decomposed link held sizes labels) (fuel : Nat)
    (r : Except Err (List (List Nat))) (h : fof argsort held sizes labels fuel = some r) :
    ∃ res, r = .ok res ∧ res.map List.length = sizes ∧
      ∀ p < sizes.sum, ∃ x, res.flatten[p]? = some x ∧ Conn link x p ∧ ∀ q, Conn link q p → x ≤ q := by
  obtain ⟨f₀, res, h1, h2, h3⟩ := fof_components link argsort hA held labels sizes hd
  refine ⟨res, ?_, h2, h3⟩
  have e : fof argsort held sizes labels (max fuel f₀) = some r := by
    unfold fof at h ⊢
    cases hl : fofLocal argsort held sizes labels with
    | error e => rw [hl] at h; exact h
    | ok M => rw [hl] at h; exact mergeLoop_mono argsort held sizes fuel M r h _ (by omega)
  rw [h1 _ (by omega)] at e
  exact (Option.some.inj e).symm

/-- C36: particles have the same label iff a chain of friends connects them. -/
theorem fof_same_iff (link : Nat → Nat → Prop) (argsort : List Nat → List Nat) (hA : IsArgsort argsort)
    (held labels : List (List Nat)) (sizes : List Nat) (hd : Decomposed link held sizes labels) (fuel : Nat)
    (res : List (List Nat)) (h : fof argsort held sizes labels fuel = some (.ok res)) (p q : Nat)
    (hp : p < sizes.sum) (hq : q < sizes.sum) :
    res.flatten[p]? = res.flatten[q]? ↔ Conn link p q := by
  obtain ⟨res', e, -, h3⟩ := fof_root link argsort hA held labels sizes hd fuel _ h
  obtain rfl := Except.ok.inj e
  obtain ⟨x, hx, hxc, hxm⟩ := h3 p hp
  obtain ⟨y, hy, hyc, hym⟩ := h3 q hq
  rw [hx, hy]
  constructor
  · intro e
    obtain rfl := Option.some.inj e
    exact (hxc.symm _ _).trans _ _ _ hyc
  · intro hpq
    congr 1
    exact le_antisymm (hxm y (hyc.trans _ _ _ (hpq.symm _ _))) (hym x (hxc.trans _ _ _ hpq))

/-- C36: the labels depend neither on the decomposition (number of ranks, ghosts, labels of `kdcount`) nor on the sorting. -/
theorem fof_independent (link : Nat → Nat → Prop) (argsort argsort' : List Nat → List Nat) (hA : IsArgsort argsort)
    (hA' : IsArgsort argsort') (held labels held' labels' : List (List Nat)) (sizes sizes' : List Nat)
    (hn : sizes.sum = sizes'.sum)
    (hd : Decomposed link held sizes labels) (hd' : Decomposed link held' sizes' labels') (fuel fuel' : Nat)
    (res res' : List (List Nat)) (h : fof argsort held sizes labels fuel = some (.ok res))
    (h' : fof argsort' held' sizes' labels' fuel' = some (.ok res')) : res.flatten = res'.flatten := by
  obtain ⟨_, e, hl, h3⟩ := fof_root link argsort hA held labels sizes hd fuel _ h
  obtain rfl := Except.ok.inj e
  obtain ⟨_, e, hl', h3'⟩ := fof_root link argsort' hA' held' labels' sizes' hd' fuel' _ h'
  obtain rfl := Except.ok.inj e
  have hlen : res.flatten.length = sizes.sum := by rw [List.length_flatten, hl]
  have hlen' : res'.flatten.length = sizes'.sum := by rw [List.length_flatten, hl']
  apply List.ext_getElem?
  intro p
  by_cases hp : p < sizes.sum
  · obtain ⟨x, hx, hxc, hxm⟩ := h3 p hp
    obtain ⟨y, hy, hyc, hym⟩ := h3' p (by omega)
    rw [hx, hy, le_antisymm (hxm y hyc) (hym x hxc)]
  · rw [List.getElem?_eq_none (by omega), List.getElem?_eq_none (by omega)]

/-- Three particles in a chain `0 - 1 - 2` over two ranks; particle 1 is on both. -/
theorem chain_decomposed : Decomposed (fun p q => (p = 0 ∧ q = 1) ∨ (p = 1 ∧ q = 2)) [[1, 2], [0, 1]] [2, 1] [[0, 0], [0, 0]] where
  covers := by
    intro p hp
    have : p = 0 ∨ p = 1 ∨ p = 2 := by simp at hp; omega
    rcases this with rfl | rfl | rfl <;> simp
  inside := by decide
  shares := by
    rintro p q (⟨rfl, rfl⟩ | ⟨rfl, rfl⟩) <;> simp
  local_labels := by
    have key : ∀ h : List Nat, ∀ u v, h = [u, v] → (u = 1 ∧ v = 2 ∨ u = 0 ∧ v = 1) →
        KdLabels (fun p q => (p = 0 ∧ q = 1) ∨ (p = 1 ∧ q = 2)) h [0, 0] := by
      intro h u v hh huv
      subst hh
      have e : LocalConn (fun p q => (p = 0 ∧ q = 1) ∨ (p = 1 ∧ q = 2)) [u, v] u v := by
        refine .rel _ _ ⟨?_, by simp, by simp⟩
        rcases huv with ⟨rfl, rfl⟩ | ⟨rfl, rfl⟩ <;> simp
      refine ⟨rfl, ⟨1, by intro x; simp⟩, ?_⟩
      intro a b p q ha hb
      have ca : a = 0 ∧ p = u ∨ a = 1 ∧ p = v := by
        match a, ha with
        | 0, ha => left; simpa using ha.symm
        | 1, ha => right; simpa using ha.symm
      have cb : b = 0 ∧ q = u ∨ b = 1 ∧ q = v := by
        match b, hb with
        | 0, hb => left; simpa using hb.symm
        | 1, hb => right; simpa using hb.symm
      rcases ca with ⟨rfl, rfl⟩ | ⟨rfl, rfl⟩ <;> rcases cb with ⟨rfl, rfl⟩ | ⟨rfl, rfl⟩
      · exact ⟨fun _ => .refl _, fun _ => rfl⟩
      · exact ⟨fun _ => e, fun _ => rfl⟩
      · exact ⟨fun _ => e.symm _ _, fun _ => rfl⟩
      · exact ⟨fun _ => .refl _, fun _ => rfl⟩
    exact .cons (key _ 1 2 rfl (by simp)) (.cons (key _ 0 1 rfl (by simp)) .nil)

/-- Here particles 0 and 2, which share no rank, get the same label. -/
example : ∃ fuel res, fof stableArgsort [[1, 2], [0, 1]] [2, 1] [[0, 0], [0, 0]] fuel = some (.ok res) ∧
    res.flatten[0]? = res.flatten[2]? := by
  obtain ⟨f₀, res, h1, -, -⟩ := fof_components _ stableArgsort stableArgsort_isArgsort _ _ _ chain_decomposed
  have h := h1 f₀ (le_refl _)
  refine ⟨f₀, res, h, (fof_same_iff _ stableArgsort stableArgsort_isArgsort _ _ _ chain_decomposed f₀ res h 0 2
    (by decide) (by decide)).mpr ?_⟩
  exact (Relation.EqvGen.rel 0 1 (by simp)).trans _ _ _ (.rel 1 2 (by simp))

end NBK.Fof
