import Verif.SaveObj.Lemmas
import Mathlib.Data.List.Nodup

/-!
# Saving a catalog (C139)
-/
set_option linter.unusedSimpArgs false
namespace NBK.SaveObj
open NBK.Attrs (Codec Dict Val Stored)
variable {V : Type}

/-- The names of the blocks. -/
def names (l : List (Name × Col V)) : List Name := l.map Prod.fst

/-- The chunks are those of the columns, and every row is in one; the order is any. -/
structure Covers (P : Nat) (l : List (Name × Col V)) (o : List ((Name × Col V) × Chunk)) : Prop where
  sound : ∀ x ∈ o, x.1 ∈ l ∧ x.2.rank < P ∧ x.2.first + x.2.num ≤ x.1.2.expr.len x.2.rank
  complete : ∀ p ∈ l, ∀ r i, r < P → i < p.2.expr.len r → ∃ k : Chunk, (p, k) ∈ o ∧ k.rank = r ∧ k.first ≤ i ∧ i < k.first + k.num

/-- No column that is saved reads a block that is created. -/
def Apart (path : String) (l : List (Name × Col V)) : Prop := ∀ p ∈ l, ∀ x ∈ p.2.expr.reads, ¬ (x.1 = path ∧ x.2 ∈ names l)

theorem createAll_other (P : Nat) (path path' : String) (fs : FS V) (l : List (Name × Col V)) (m : Name) (h : ¬ (path' = path ∧ m ∈ names l)) :
    (createAll P path fs l).block path' m = fs.block path' m := by
  induction l generalizing fs with
  | nil => rfl
  | cons p l ih =>
    unfold createAll at ih ⊢
    rw [List.foldl_cons, ih _ (fun hh => h ⟨hh.1, by simp only [names, List.map_cons, List.mem_cons]; exact Or.inr hh.2⟩), block_put,
      if_neg (fun hh => h ⟨hh.1, by simp [names, hh.2]⟩)]

theorem createAll_mem (P : Nat) (path : String) (fs : FS V) (l : List (Name × Col V)) (hn : (names l).Nodup) (p : Name × Col V) (hp : p ∈ l) :
    (createAll P path fs l).block path p.1 = some ⟨total P p.2.expr, [], p.2.attrs⟩ := by
  induction l generalizing fs with
  | nil => cases hp
  | cons q l ih =>
    have hq := List.nodup_cons.mp (show (q.1 :: names l).Nodup from hn)
    rcases List.mem_cons.mp hp with rfl | hp
    · have := createAll_other P path path (fs.put path p.1 ⟨total P p.2.expr, [], p.2.attrs⟩) l p.1 (fun h => hq.1 h.2)
      unfold createAll at this ⊢
      rw [List.foldl_cons, this, block_put, if_pos ⟨rfl, rfl⟩]
    · have := ih (fs.put path q.1 ⟨total P q.2.expr, [], q.2.attrs⟩) hq.2 hp
      unfold createAll at this ⊢
      rw [List.foldl_cons]
      exact this

theorem createAll_path (P : Nat) (path path' : String) (fs : FS V) (l : List (Name × Col V)) (h : path' ≠ path) : (createAll P path fs l) path' = fs path' := by
  induction l generalizing fs with
  | nil => rfl
  | cons p l ih =>
    unfold createAll at ih ⊢
    rw [List.foldl_cons, ih, put_path _ _ _ _ _ h]

theorem touch_block (fs : FS V) (path path' : String) (m : Name) :
    (if (fs path).isSome then fs else Function.update fs path (some []) : FS V).block path' m = fs.block path' m := by
  by_cases h : (fs path).isSome
  · rw [if_pos h]
  · rw [if_neg h]
    unfold FS.block
    by_cases hp : path' = path
    · subst hp
      have : fs path' = none := Option.not_isSome_iff_eq_none.mp h
      rw [Function.update_self, this]
      rfl
    · rw [Function.update_of_ne hp]

/-- The attributes of a block that was saved: the header may be one of the columns. -/
def attrsAfter (c : Codec) (attrs : Dict Val) (h : Option Name) (p : Name × Col V) : Dict Stored :=
  if h = some p.1 then (storeAll c p.2.attrs attrs).1 else p.2.attrs

/-- The disk before the rows are written. -/
theorem begin_spec (c : Codec) (P : Nat) (fs : FS V) (cat : Cat V) (path : String) (a : Args) (l : List (Name × Col V)) (hl : chosen cat a = .ok l) (hn : (names l).Nodup) :
    (∀ p ∈ l, (begin c P fs cat path a).1.block path p.1 = some ⟨total P p.2.expr, [], attrsAfter c cat.attrs a.header p⟩) ∧
    (∀ path' m, ¬ (path' = path ∧ (m ∈ names l ∨ a.header = some m)) → (begin c P fs cat path a).1.block path' m = fs.block path' m) ∧
    (∀ h, a.header = some h → h ∉ names l →
      (begin c P fs cat path a).1.block path h =
        some ⟨((fs.block path h).map Block.size).getD 0, ((fs.block path h).map Block.data).getD [], (storeAll c (((fs.block path h).map Block.attrs).getD []) cat.attrs).1⟩) ∧
    (∀ path', path' ≠ path → (begin c P fs cat path a).1 path' = fs path') := by
  unfold begin
  rw [hl]
  dsimp only
  generalize hF : (if (fs path).isSome then fs else Function.update fs path (some []) : FS V) = F
  have hb : ∀ path' m, F.block path' m = fs.block path' m := by
    intro path' m
    rw [← hF, touch_block]
  have hp : ∀ path', path' ≠ path → F path' = fs path' := by
    intro path' h
    rw [← hF]
    by_cases hs : (fs path).isSome
    · rw [if_pos hs]
    · rw [if_neg hs, Function.update_of_ne h]
  have hmem := createAll_mem P path F l hn
  have hoth := fun path' m h => (createAll_other P path path' F l m h).trans (hb path' m)
  have hpth := fun path' h => (createAll_path P path path' F l h).trans (hp path' h)
  generalize createAll P path F l = G at hmem hoth hpth
  cases hh : a.header with
  | none =>
    simp only [putHeader]
    refine ⟨fun p hp => ?_, fun path' m h => hoth path' m fun x => h ⟨x.1, Or.inl x.2⟩, fun h e => (by cases e), hpth⟩
    rw [hmem p hp]
    simp [attrsAfter]
  | some h =>
    simp only [putHeader]
    refine ⟨fun p hp => ?_, fun path' m hx => ?_, fun h' e hnot => ?_, fun path' hx => ?_⟩
    · rw [block_put]
      by_cases e : p.1 = h
      · subst e
        rw [if_pos ⟨rfl, rfl⟩, hmem p hp]
        simp [attrsAfter]
      · rw [if_neg (fun x => e x.2), hmem p hp]
        have e2 : ¬ (some h = some p.1) := fun x => e (Option.some.inj x).symm
        rw [attrsAfter, if_neg e2]
    · rw [block_put, if_neg (fun x => hx ⟨x.1, Or.inr (by rw [x.2])⟩)]
      exact hoth path' m fun x => hx ⟨x.1, Or.inl x.2⟩
    · injection e with e
      subst e
      rw [block_put, if_pos ⟨rfl, rfl⟩, hoth path h fun x => hnot x.2]
      cases fs.block path h <;> rfl
    · rw [put_path _ _ _ _ _ hx]
      exact hpth path' hx

/-- The state of the disk while rows are written: `done` are the chunks that have been written. -/
structure Good (P : Nat) (path : String) (l : List (Name × Col V)) (F0 : FS V) (vs : Name × Col V → List V) (A : Name × Col V → Dict Stored) (fs : FS V)
    (done : List ((Name × Col V) × Chunk)) : Prop where
  other : ∀ path' m, ¬ (path' = path ∧ m ∈ names l) → fs.block path' m = F0.block path' m
  paths : ∀ path', path' ≠ path → fs path' = F0 path'
  sound : ∀ x ∈ done, x.1 ∈ l ∧ x.2.rank < P ∧ x.2.first + x.2.num ≤ x.1.2.expr.len x.2.rank
  block : ∀ p ∈ l, ∃ d, fs.block path p.1 = some ⟨total P p.2.expr, d, A p⟩ ∧ d.length ≤ total P p.2.expr ∧
    ∀ x ∈ done, x.1 = p → ∀ i, i < x.2.num → d[offset p.2.expr x.2.rank + x.2.first + i]? = (vs p)[offset p.2.expr x.2.rank + x.2.first + i]?

theorem same_name (l : List (Name × Col V)) (hn : (names l).Nodup) (p q : Name × Col V) (hp : p ∈ l) (hq : q ∈ l) (h : p.1 = q.1) : p = q :=
  List.inj_on_of_nodup_map hn hp hq h

theorem writeAll_spec (zero : V) (P : Nat) (path : String) (l : List (Name × Col V)) (hn : (names l).Nodup) (F0 : FS V) (ha : Apart path l) (vs : Name × Col V → List V)
    (hv : ∀ p ∈ l, values F0 P p.2.expr = some (vs p)) (A : Name × Col V → Dict Stored) (o done : List ((Name × Col V) × Chunk)) (fs : FS V)
    (hs : ∀ x ∈ o, x.1 ∈ l ∧ x.2.rank < P ∧ x.2.first + x.2.num ≤ x.1.2.expr.len x.2.rank) (hg : Good P path l F0 vs A fs done) :
    ∃ fs', writeAll zero path fs o = (fs', true) ∧ Good P path l F0 vs A fs' (done ++ o) := by
  induction o generalizing done fs with
  | nil => exact ⟨fs, rfl, by rwa [List.append_nil]⟩
  | cons x o ih =>
    obtain ⟨p, k⟩ := x
    obtain ⟨hp, hr, hi⟩ := hs (p, k) List.mem_cons_self
    simp only at hp hr hi
    obtain ⟨d, hd, hdl, hdv⟩ := hg.block p hp
    obtain ⟨v1, v2⟩ := values_spec F0 P p.2.expr (vs p) (hv p hp)
    have hrow : ∀ i, i < k.num → p.2.expr.row fs k.rank (k.first + i) = (vs p)[offset p.2.expr k.rank + k.first + i]? := by
      intro i h
      rw [row_frame F0 fs p.2.expr (fun x hx => hg.other _ _ (ha p hp x hx)), Nat.add_assoc]
      exact (v2 k.rank (k.first + i) hr (by omega)).symm
    have hlt : ∀ i, i < k.num → offset p.2.expr k.rank + k.first + i < total P p.2.expr := by
      intro i h
      have := row_lt P p.2.expr k.rank (k.first + i) hr (by omega)
      omega
    obtain ⟨us, hu⟩ := mapM_range_some k.num (fun i => p.2.expr.row fs k.rank (k.first + i)) (by
      intro i h
      rw [hrow i h, List.getElem?_eq_getElem (by rw [v1]; exact hlt i h)]
      rfl)
    obtain ⟨u1, u2⟩ := (mapM_range _ _ _).mp hu
    have hw : writeChunk zero path p.1 p.2.expr fs k =
        some (fs.put path p.1 ⟨total P p.2.expr, writeAt zero d (offset p.2.expr k.rank + k.first) us, A p⟩) := by
      unfold writeChunk
      rw [hu, hd]
      rfl
    have hgood : Good P path l F0 vs A (fs.put path p.1 ⟨total P p.2.expr, writeAt zero d (offset p.2.expr k.rank + k.first) us, A p⟩) (done ++ [(p, k)]) := by
      refine ⟨fun path' m h => ?_, fun path' h => (put_path _ _ _ _ _ h).trans (hg.paths path' h), fun x hx => ?_, fun q hq => ?_⟩
      · rw [block_put, if_neg (fun x => h ⟨x.1, by rw [x.2]; exact List.mem_map.mpr ⟨p, hp, rfl⟩⟩)]
        exact hg.other path' m h
      · rcases List.mem_append.mp hx with hx | hx
        · exact hg.sound x hx
        · simp only [List.mem_singleton] at hx
          subst hx
          exact ⟨hp, hr, hi⟩
      · by_cases e : q.1 = p.1
        · have := same_name l hn q p hq hp e
          subst this
          refine ⟨_, by rw [block_put, if_pos ⟨rfl, rfl⟩], writeAt_length _ _ _ _ _ hdl (fun hne => ?_), fun x hx hxe i hxi => ?_⟩
          · have : 0 < k.num := by
              rw [← u1]
              exact List.length_pos_iff.mpr hne
            have := hlt (k.num - 1) (by omega)
            omega
          · by_cases hne : us = []
            · have hk0 : k.num = 0 := by rw [← u1, hne]; rfl
              have hw0 : writeAt zero d (offset q.2.expr k.rank + k.first) us = d := by
                unfold writeAt; rw [if_pos hne]
              rw [hw0]
              rcases List.mem_append.mp hx with hx | hx
              · exact hdv x hx hxe i hxi
              · simp only [List.mem_singleton] at hx
                subst hx
                simp only at hxi
                omega
            · rw [writeAt_get _ _ _ _ _ hne, u1]
              by_cases c1 : offset q.2.expr k.rank + k.first ≤ offset q.2.expr x.2.rank + x.2.first + i ∧
                  offset q.2.expr x.2.rank + x.2.first + i < offset q.2.expr k.rank + k.first + k.num
              · rw [if_neg (by omega), if_pos c1.2]
                have h3 := u2 (offset q.2.expr x.2.rank + x.2.first + i - (offset q.2.expr k.rank + k.first)) (by omega)
                rw [h3, hrow _ (by omega)]
                congr 1
                omega
              · rcases List.mem_append.mp hx with hx | hx
                · have hold := hdv x hx hxe i hxi
                  have hin : offset q.2.expr x.2.rank + x.2.first + i < total P q.2.expr := by
                    obtain ⟨_, s2, s3⟩ := hg.sound x hx
                    rw [hxe] at s3
                    have := row_lt P q.2.expr x.2.rank (x.2.first + i) s2 (by omega)
                    omega
                  have hdlt : offset q.2.expr x.2.rank + x.2.first + i < d.length := by
                    by_contra hc
                    rw [List.getElem?_eq_none (by omega), List.getElem?_eq_getElem (by omega)] at hold
                    cases hold
                  rw [if_pos hdlt]
                  by_cases c2 : offset q.2.expr x.2.rank + x.2.first + i < offset q.2.expr k.rank + k.first
                  · rw [if_pos c2]; exact hold
                  · rw [if_neg c2, if_neg (by omega)]; exact hold
                · simp only [List.mem_singleton] at hx
                  subst hx
                  simp only at hxi c1
                  omega
        · obtain ⟨d', h1, h2, h3⟩ := hg.block q hq
          refine ⟨d', by rw [block_put, if_neg (fun x => e x.2)]; exact h1, h2, fun x hx hxe => ?_⟩
          rcases List.mem_append.mp hx with hx | hx
          · exact h3 x hx hxe
          · simp only [List.mem_singleton] at hx
            subst hx
            exact absurd (by rw [← hxe]) e
    obtain ⟨fs', h1, h2⟩ := ih (done ++ [(p, k)]) _ (fun x hx => hs x (List.mem_cons_of_mem _ hx)) hgood
    refine ⟨fs', ?_, by rwa [List.append_assoc] at h2⟩
    unfold writeAll
    rw [hw]
    exact h1

theorem storeAll_snd (c : Codec) (old old' : Dict Stored) (attrs : Dict Val) : (storeAll c old attrs).2 = (storeAll c old' attrs).2 := by
  induction attrs generalizing old old' with
  | nil => rfl
  | cons p l ih =>
    unfold storeAll
    cases Attrs.storeCat c p.2 with
    | error e => rfl
    | ok s => exact ih _ _

/-- Whether the header can be written does not depend on the disk. -/
theorem putHeader_snd (c : Codec) (path : String) (attrs : Dict Val) (fs : FS V) (h : Option Name) :
    (putHeader c path attrs fs h).2 = (decide (h = none) || (storeAll c [] attrs).2) := by
  cases h with
  | none => rfl
  | some h =>
    simp only [putHeader, reduceCtorEq, decide_false, Bool.false_or]
    exact storeAll_snd _ _ _ _

/-- The attributes can be stored. -/
def Storable (c : Codec) (cat : Cat V) (a : Args) : Prop := a.header = none ∨ ∀ p ∈ cat.attrs, ∃ s, Attrs.storeCat c p.2 = .ok s

theorem storeAll_ok (c : Codec) (old : Dict Stored) (attrs : Dict Val) : (storeAll c old attrs).2 = true ↔ ∀ p ∈ attrs, ∃ s, Attrs.storeCat c p.2 = .ok s := by
  induction attrs generalizing old with
  | nil => simp [storeAll]
  | cons p l ih =>
    unfold storeAll
    cases h : Attrs.storeCat c p.2 with
    | error e => simp [h]
    | ok s => simp [h, ih]

theorem begin_snd (c : Codec) (P : Nat) (fs : FS V) (cat : Cat V) (path : String) (a : Args) (l : List (Name × Col V)) (hl : chosen cat a = .ok l) (hs : Storable c cat a) :
    (begin c P fs cat path a).2 = .ok l := by
  unfold begin
  rw [hl]
  dsimp only
  rw [putHeader_snd, if_pos]
  rcases hs with h | h
  · simp [h]
  · simp [(storeAll_ok c [] cat.attrs).mpr h]

/-- The rows are those the columns have when `save` is called. -/
theorem begin_values (c : Codec) (P : Nat) (fs : FS V) (cat : Cat V) (path : String) (a : Args) (l : List (Name × Col V)) (hl : chosen cat a = .ok l) (hn : (names l).Nodup)
    (ha : Apart path l) (p : Name × Col V) (hp : p ∈ l) (vs : List V) (hv : values fs P p.2.expr = some vs) : values (begin c P fs cat path a).1 P p.2.expr = some vs := by
  obtain ⟨b1, b2, b3, _⟩ := begin_spec c P fs cat path a l hl hn
  obtain ⟨h1, h2⟩ := values_spec fs P p.2.expr vs hv
  refine values_of _ P p.2.expr vs h1 fun r i hr hi => ?_
  rw [h2 r i hr hi]
  have hsome : ∀ e : Expr V, (∀ x ∈ e.reads, ¬ (x.1 = path ∧ x.2 ∈ names l)) → (e.row fs r i).isSome → e.row (begin c P fs cat path a).1 r i = e.row fs r i := by
    intro e
    induction e with
    | mem => intro _ _; rfl
    | disk q b lo len =>
      intro hx hs
      have hx := hx (q, b) (by simp [Expr.reads])
      by_cases hh : q = path ∧ a.header = some b
      · have hb3 := b3 b hh.2 (fun hm => hx ⟨hh.1, hm⟩)
        simp only [Expr.row] at hs ⊢
        obtain ⟨rfl, _⟩ := hh
        rw [hb3]
        cases hfb : fs.block q b with
        | none =>
          rw [hfb] at hs
          simp at hs
        | some b => rfl
      · simp only [Expr.row]
        rw [b2 q b (fun h => by
          rcases h.2 with h' | h'
          · exact hx ⟨h.1, h'⟩
          · exact hh ⟨h.1, h'⟩)]
    | map f e ih =>
      intro hx hs
      simp only [Expr.row, Option.isSome_map] at hs ⊢
      rw [ih hx hs]
    | zip f e1 e2 ih1 ih2 =>
      intro hx hs
      simp only [Expr.row] at hs ⊢
      cases h1 : e1.row fs r i with
      | none => rw [h1] at hs; cases hs
      | some v1 =>
        rw [h1] at hs
        simp only [Option.bind_some, Option.isSome_map] at hs
        rw [ih1 (fun x hm => hx x (by simp [Expr.reads, hm])) (by rw [h1]; rfl), ih2 (fun x hm => hx x (by simp [Expr.reads, hm])) hs, h1]
  refine (hsome p.2.expr (ha p hp) ?_).symm
  rw [← h2 r i hr hi, List.getElem?_eq_getElem (by rw [h1]; exact row_lt P p.2.expr r i hr hi)]
  rfl

/-- **`save`** (C139): whatever the number of ranks, the chunks and the order in which they are written, the blocks hold the rows of the columns at the time of the call, one rank after
the other; the header has the attributes; no other block changes, in this or another file. Columns that read the blocks which are created are excluded. -/
theorem save_partial (c : Codec) (zero : V) (fs : FS V) (cat : Cat V) (path : String) (a : Args) (order : List (Name × Col V) → List ((Name × Col V) × Chunk))
    (l : List (Name × Col V)) (hl : chosen cat a = .ok l) (hn : (names l).Nodup) (hs : Storable c cat a) (ha : Apart path l) (ho : Covers cat.sizes.length l (order l))
    (vs : Name × Col V → List V) (hv : ∀ p ∈ l, values fs cat.sizes.length p.2.expr = some (vs p)) :
    ∃ fs', save c zero fs cat path a order = (fs', none) ∧
      (∀ p ∈ l, fs'.block path p.1 = some ⟨(vs p).length, vs p, attrsAfter c cat.attrs a.header p⟩) ∧
      (∀ path' m, ¬ (path' = path ∧ (m ∈ names l ∨ a.header = some m)) → fs'.block path' m = fs.block path' m) ∧
      (∀ h, a.header = some h → h ∉ names l → fs'.block path h =
        some ⟨((fs.block path h).map Block.size).getD 0, ((fs.block path h).map Block.data).getD [], (storeAll c (((fs.block path h).map Block.attrs).getD []) cat.attrs).1⟩) ∧
      (∀ path', path' ≠ path → fs' path' = fs path') := by
  obtain ⟨b1, b2, b3, b4⟩ := begin_spec c cat.sizes.length fs cat path a l hl hn
  have hsnd := begin_snd c cat.sizes.length fs cat path a l hl hs
  have hv' := fun p hp => begin_values c cat.sizes.length fs cat path a l hl hn ha p hp (vs p) (hv p hp)
  generalize hF : (begin c cat.sizes.length fs cat path a).1 = F at b1 b2 b3 b4 hv'
  obtain ⟨fs', h1, h2⟩ := writeAll_spec zero cat.sizes.length path l hn F ha vs hv' (attrsAfter c cat.attrs a.header) (order l) [] F ho.sound
    ⟨fun _ _ _ => rfl, fun _ _ => rfl, fun x hx => (by cases hx), fun p hp => ⟨[], b1 p hp, Nat.zero_le _, fun x hx => (by cases hx)⟩⟩
  rw [List.nil_append] at h2
  refine ⟨fs', ?_, fun p hp => ?_, fun path' m h => ?_, fun h hh hnot => ?_, fun path' h => ?_⟩
  · unfold save
    dsimp only
    rw [hsnd, hF]
    dsimp only
    rw [h1]
    rfl
  · obtain ⟨d, e1, e2, e3⟩ := h2.block p hp
    obtain ⟨v1, v2⟩ := values_spec F cat.sizes.length p.2.expr (vs p) (hv' p hp)
    have hd : d = vs p := by
      apply List.ext_getElem?
      intro k
      by_cases hk : k < total cat.sizes.length p.2.expr
      · obtain ⟨r, i, hr, hi, rfl⟩ := row_of _ p.2.expr k hk
        obtain ⟨ch, q1, q2, q3, q4⟩ := ho.complete p hp r i hr hi
        have := e3 _ q1 rfl (i - ch.first) (by simp only; omega)
        simp only [q2] at this
        rw [show offset p.2.expr r + ch.first + (i - ch.first) = offset p.2.expr r + i by omega] at this
        exact this
      · rw [List.getElem?_eq_none (by omega), List.getElem?_eq_none (by omega)]
    rw [e1, hd, v1]
  · rw [h2.other path' m fun hx => h ⟨hx.1, Or.inl hx.2⟩]
    exact b2 path' m h
  · rw [h2.other path h fun hx => hnot hx.2]
    exact b3 h hh hnot
  · rw [h2.paths path' h]
    exact b4 path' h

end NBK.SaveObj
