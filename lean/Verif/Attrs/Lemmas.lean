import Verif.Attrs.Model
import Mathlib.Data.List.Basic

set_option linter.unusedSimpArgs false

/-! Dictionaries and loops over them. -/
namespace NBK.Attrs
variable {β γ : Type}

theorem lookup_map (d : Dict β) (k k' : String) (v : β) :
    List.lookup k' (d.map fun p => if p.1 = k then (k, v) else p) =
      if k' = k then (d.lookup k).map fun _ => v else d.lookup k' := by
  induction d with
  | nil => simp
  | cons p d ih =>
    obtain ⟨a, b⟩ := p
    rw [List.map_cons]
    by_cases ha : a = k
    · subst ha
      by_cases hk : k' = a
      · subst hk; simp [List.lookup_cons]
      · have : (k' == a) = false := by simpa using hk
        simp [List.lookup_cons, this, ih, hk]
    · by_cases hk : k' = a
      · subst hk; simp [List.lookup_cons, ha]
      · have h1 : (k' == a) = false := by simpa using hk
        have h2 : (k == a) = false := by simpa using (fun h => ha h.symm)
        simp only [if_neg ha, List.lookup_cons, h1, h2, ih]

theorem lookup_put (d : Dict β) (k k' : String) (v : β) :
    (put d k v).lookup k' = if k' = k then some v else d.lookup k' := by
  unfold put
  by_cases h : (d.lookup k).isSome
  · rw [if_pos h, lookup_map]
    obtain ⟨w, hw⟩ := Option.isSome_iff_exists.mp h
    rw [hw]; rfl
  · rw [if_neg h, List.lookup_append]
    have hn : d.lookup k = none := Option.not_isSome_iff_eq_none.mp h
    by_cases hk : k' = k
    · subst hk; simp [hn, List.lookup_cons]
    · have : (k' == k) = false := by simpa using hk
      simp [List.lookup_cons, this, hk]

/-- The keys of a dict. -/
def keys (d : Dict β) : List String := d.map (·.1)

theorem lookup_none (d : Dict β) (k : String) : d.lookup k = none ↔ k ∉ keys d := by
  induction d with
  | nil => simp [keys]
  | cons p d ih =>
    obtain ⟨a, b⟩ := p
    by_cases hk : k = a
    · subst hk; simp [List.lookup_cons, keys]
    · have : (k == a) = false := by simpa using hk
      simp only [List.lookup_cons, this, ih, keys, List.map_cons, List.mem_cons, not_or]
      simp [hk]

theorem keys_put (d : Dict β) (k : String) (v : β) (h : (keys d).Nodup) : (keys (put d k v)).Nodup := by
  unfold put
  split
  · have : keys (d.map fun p => if p.1 = k then (k, v) else p) = keys d := by
      unfold keys
      rw [List.map_map]
      apply List.map_congr_left
      intro p _
      simp only [Function.comp]
      split
      · rename_i h; exact h.symm
      · rfl
    rw [this]; exact h
  · rename_i hn
    have hn' : d.lookup k = none := Option.not_isSome_iff_eq_none.mp hn
    have := (lookup_none d k).mp hn'
    unfold keys at *
    rw [List.map_append, List.nodup_append]
    refine ⟨h, by simp, ?_⟩
    intro a ha b hb
    simp only [List.map_cons, List.map_nil, List.mem_singleton] at hb
    subst hb
    exact fun e => this (e ▸ ha)

/-- A loop that converts and stores every item. -/
def loop (f : β → Except Err γ) (d : Dict γ) (l : Dict β) : Except Err (Dict γ) :=
  l.foldlM (fun d p => do pure (put d p.1 (← f p.2))) d

theorem loop_nil (f : β → Except Err γ) (d : Dict γ) : loop f d [] = .ok d := rfl

theorem loop_cons (f : β → Except Err γ) (d : Dict γ) (p : String × β) (l : Dict β) :
    loop f d (p :: l) = match f p.2 with
      | .ok s => loop f (put d p.1 s) l
      | .error e => .error e := by
  unfold loop
  rw [List.foldlM_cons]
  cases f p.2 <;> rfl

theorem loop_ok (f : β → Except Err γ) (l : Dict β) (hk : (keys l).Nodup) :
    ∀ d : Dict γ, (∀ p ∈ l, ∃ s, f p.2 = .ok s) → (keys d).Nodup →
      ∃ r, loop f d l = .ok r ∧ (keys r).Nodup ∧
        ∀ k, r.lookup k = match l.lookup k with
          | some v => (f v).toOption
          | none => d.lookup k := by
  induction l with
  | nil => intro d _ hd; exact ⟨d, rfl, hd, fun k => rfl⟩
  | cons p l ih =>
    intro d hf hd
    obtain ⟨a, b⟩ := p
    obtain ⟨s, hs⟩ := hf (a, b) (by simp)
    have hk' : a ∉ keys l ∧ (keys l).Nodup := by simpa [keys] using hk
    obtain ⟨r, h1, h2, h3⟩ := ih hk'.2 (put d a s) (fun q hq => hf q (by simp [hq])) (keys_put d a s hd)
    refine ⟨r, ?_, h2, ?_⟩
    · rw [loop_cons, hs]; exact h1
    · intro k
      rw [h3 k]
      by_cases hka : k = a
      · subst hka
        rw [(lookup_none l k).mpr hk'.1, lookup_put, if_pos rfl]
        simp only [List.lookup_cons, BEq.rfl]
        simp only [] at hs
        rw [hs]; rfl
      · have hb : (k == a) = false := by simpa using hka
        simp only [List.lookup_cons, hb]
        cases l.lookup k with
        | some v => rfl
        | none => rw [lookup_put, if_neg hka]

theorem loop_error (f : β → Except Err γ) (l : Dict β) :
    ∀ d : Dict γ, (∃ e, loop f d l = .error e) ↔ ∃ p ∈ l, ∃ e, f p.2 = .error e := by
  induction l with
  | nil => intro d; simp [loop_nil]
  | cons p l ih =>
    intro d
    rw [loop_cons]
    cases h : f p.2 with
    | ok s => simp [ih, h]
    | error e => simp [h]

theorem mem_of_lookup (l : Dict β) (k : String) (v : β) (h : l.lookup k = some v) : (k, v) ∈ l := by
  induction l with
  | nil => simp at h
  | cons p l ih =>
    obtain ⟨a, b⟩ := p
    by_cases hk : k = a
    · subst hk
      simp [List.lookup_cons] at h
      simp [h]
    · have hb : (k == a) = false := by simpa using hk
      rw [List.lookup_cons, hb] at h
      exact List.mem_cons_of_mem _ (ih h)

theorem lookup_of_mem (l : Dict β) (hn : (keys l).Nodup) (k : String) (v : β) (h : (k, v) ∈ l) : l.lookup k = some v := by
  induction l with
  | nil => simp at h
  | cons p l ih =>
    obtain ⟨a, b⟩ := p
    have hk' : a ∉ keys l ∧ (keys l).Nodup := by simpa [keys] using hn
    rcases List.mem_cons.mp h with h' | h'
    · cases h'; simp [List.lookup_cons]
    · have hka : k ≠ a := by
        rintro rfl
        exact hk'.1 (List.mem_map.mpr ⟨(k, v), h', rfl⟩)
      have hb : (k == a) = false := by simpa using hka
      rw [List.lookup_cons, hb]
      exact ih hk'.2 h'

theorem update_lookup (e : Dict β) (hn : (keys e).Nodup) :
    ∀ (d : Dict β) (k : String), (update d e).lookup k = (e.lookup k).or (d.lookup k) := by
  induction e with
  | nil => intro d k; rfl
  | cons p e ih =>
    obtain ⟨a, b⟩ := p
    have hk' : a ∉ keys e ∧ (keys e).Nodup := by simpa [keys] using hn
    intro d k
    have : update d ((a, b) :: e) = update (put d a b) e := rfl
    rw [this, ih hk'.2, lookup_put]
    by_cases hka : k = a
    · subst hka
      rw [(lookup_none e k).mpr hk'.1]
      simp [List.lookup_cons]
    · have hb : (k == a) = false := by simpa using hka
      simp [List.lookup_cons, hb, hka]

theorem update_nodup (e : Dict β) : ∀ d : Dict β, (keys d).Nodup → (keys (update d e)).Nodup := by
  induction e with
  | nil => intro d h; exact h
  | cons p e ih => intro d h; exact ih _ (keys_put d p.1 p.2 h)

theorem tag_prefix (t : Text) : tag.isPrefixOf (tag ++ t) = true := by
  simp [tag, List.isPrefixOf]

theorem tag_drop (t : Text) : (tag ++ t).drop 7 = t := rfl

end NBK.Attrs
