import Verif.Plain.Model
import Mathlib.Data.List.Basic

/-! # Lemmas on the plain text readers -/
set_option linter.unusedSimpArgs false
namespace NBK.Plain

/-- A word: not empty, without white space. -/
def IsTok (t : Tok) : Prop := t ≠ [] ∧ ∀ c ∈ t, c.isWhitespace = false

theorem splitWs_space (c : Char) (cs : List Char) (h : c.isWhitespace = true) : splitWs (c :: cs) = splitWs cs := by
  simp [splitWs, h]

theorem splitWs_tok (t : Tok) (h : IsTok t) (c : Char) (cs : List Char) (hc : c.isWhitespace = true) :
    splitWs (t ++ c :: cs) = t :: splitWs cs := by
  obtain ⟨h0, h1⟩ := h
  induction t with
  | nil => exact absurd rfl h0
  | cons x xs ih =>
    have hx : x.isWhitespace = false := h1 x (by simp)
    cases xs with
    | nil => simp [splitWs, hx, hc]
    | cons y ys =>
      have hy : y.isWhitespace = false := h1 y (by simp)
      have := ih (by simp) (fun c hc => h1 c (by simp [hc]))
      rw [List.cons_append, splitWs, if_neg (by simp [hx])]
      simp only [List.cons_append, List.head?_cons, Option.map_some, Option.getD_some, hy]
      rw [← List.cons_append, this]
      simp

/-- Words with one blank before each, and the end of the line. -/
def words : List Tok → List Char
  | [] => ['\n']
  | t :: ts => ' ' :: t ++ words ts

theorem words_head (ts : List Tok) : ∃ (c : Char) (cs : List Char), words ts = c :: cs ∧ c.isWhitespace = true := by
  cases ts with
  | nil => exact ⟨'\n', [], rfl, by decide⟩
  | cons t ts => exact ⟨' ', t ++ words ts, rfl, by decide⟩

theorem splitWs_words (ts : List Tok) (h : ∀ t ∈ ts, IsTok t) : splitWs (words ts) = ts := by
  induction ts with
  | nil => decide
  | cons t ts ih =>
    obtain ⟨c, cs, e, hc⟩ := words_head ts
    have ih := ih (fun t ht => h t (by simp [ht]))
    rw [words, List.cons_append, splitWs_space _ _ (by decide), e, splitWs_tok t (h t (by simp)) c cs hc]
    rw [e, splitWs_space _ _ hc] at ih
    rw [ih]

/-- Words with one blank between them, and the end of the line. -/
def wordLine : List Tok → List Char
  | [] => ['\n']
  | t :: ts => t ++ words ts

theorem splitWs_wordLine (ts : List Tok) (h : ∀ t ∈ ts, IsTok t) : splitWs (wordLine ts) = ts := by
  cases ts with
  | nil => decide
  | cons t ts =>
    have := splitWs_words (t :: ts) h
    rw [words, List.cons_append, splitWs_space _ _ (by decide)] at this
    exact this

theorem dropWhile_tok (t : Tok) (h : IsTok t) (r : List Char) : (t ++ r).dropWhile Char.isWhitespace = t ++ r := by
  obtain ⟨h0, h1⟩ := h
  cases t with
  | nil => exact absurd rfl h0
  | cons x xs => simp [List.dropWhile, h1 x (by simp)]

theorem strip_tok (t : Tok) (h : IsTok t) : strip t = t := by
  have h1 := dropWhile_tok t h []
  have h2 : IsTok t.reverse := ⟨by simpa using h.1, by simpa using h.2⟩
  have h3 := dropWhile_tok t.reverse h2 []
  simp only [List.append_nil] at h1 h3
  rw [strip, h1, h3, List.reverse_reverse]

theorem strip_tok_nl (t : Tok) (h : IsTok t) : strip (t ++ ['\n']) = t := by
  have h2 : IsTok t.reverse := ⟨by simpa using h.1, by simpa using h.2⟩
  have h3 := dropWhile_tok t.reverse h2 []
  simp only [List.append_nil] at h3
  have hn : Char.isWhitespace '\n' = true := by decide
  rw [strip, dropWhile_tok t h]
  simp only [List.reverse_append, List.reverse_cons, List.reverse_nil, List.nil_append, List.singleton_append, List.dropWhile, hn]
  rw [h3, List.reverse_reverse]

theorem strip_space_tok_nl (t : Tok) (h : IsTok t) : strip (' ' :: t ++ ['\n']) = t := by
  have : (' ' :: t ++ ['\n']).dropWhile Char.isWhitespace = (t ++ ['\n']).dropWhile Char.isWhitespace := by
    have hn : Char.isWhitespace ' ' = true := by decide
    simp [List.dropWhile, hn]
  rw [strip, this, ← strip, strip_tok_nl t h]

theorem contains_mem (c : Char) (sub : Tok) (l : List Char) (h : contains (c :: sub) l = true) : c ∈ l := by
  induction l with
  | nil => simp [contains] at h
  | cons x xs ih =>
    simp only [contains, Bool.or_eq_true, List.isPrefixOf, Bool.and_eq_true, beq_iff_eq] at h
    rcases h with ⟨h, _⟩ | h
    · simp [h]
    · exact List.mem_cons_of_mem _ (ih h)

theorem contains_false (c : Char) (sub : Tok) (l : List Char) (h : c ∉ l) : contains (c :: sub) l = false := by
  cases e : contains (c :: sub) l with
  | false => rfl
  | true => exact absurd (contains_mem _ _ _ e) h

theorem mapM_ok {α β : Type} (f : α → Except Err β) (g : α → β) (l : List α) (h : ∀ a ∈ l, f a = .ok (g a)) :
    l.mapM f = .ok (l.map g) := by
  induction l with
  | nil => rfl
  | cons a l ih =>
    rw [List.mapM_cons, h a (by simp), ih (fun b hb => h b (by simp [hb]))]
    rfl

theorem mapM_ok_of {α β γ : Type} (f : β → Except Err γ) (r : α → β) (g : α → γ) (l : List α) (h : ∀ a ∈ l, f (r a) = .ok (g a)) :
    (l.map r).mapM f = .ok (l.map g) := by
  induction l with
  | nil => rfl
  | cons a l ih =>
    rw [List.map_cons, List.mapM_cons, h a (by simp), ih (fun b hb => h b (by simp [hb]))]
    rfl

theorem index_nat {α : Type} (l : List α) (k : Nat) (x : α) (h : l[k]? = some x) : index l (k : Int) = .ok x := by
  unfold index
  dsimp only
  rw [if_neg (by omega), if_neg (by omega)]
  simp [h]

theorem clip_nat (n k : Nat) (h : k ≤ n) : clip n (k : Int) = k := by
  unfold clip
  rw [if_neg (by omega)]
  omega

theorem slice_mid {α : Type} (a b c : List α) : slice (a ++ b ++ c) (a.length : Int) ((a.length : Int) + b.length) = b := by
  unfold slice
  have h1 : ((a.length : Int) + b.length) = ((a.length + b.length : Nat) : Int) := by omega
  rw [h1, clip_nat _ _ (by simp), clip_nat _ _ (by simp)]
  rw [List.take_append_of_le_length (by simp)]
  rw [List.take_of_length_le (by simp)]
  simp

theorem run_done {F V : Type} (p : Prims F V) (lines : List Line) (n : Nat) (s : St F V) (h : s.cur = lines.length) :
    run p lines n s = some (.ok s) := by
  cases n <;> simp [run, h]

theorem run_step {F V : Type} (p : Prims F V) (lines : List Line) (n : Nat) (s s' : St F V) (h : s.cur ≠ lines.length)
    (hs : step p lines s = .ok s') : run p lines (n + 1) s = run p lines n s' := by
  rw [run, if_neg h, hs]

theorem run_mono {F V : Type} (p : Prims F V) (lines : List Line) (n k : Nat) (s : St F V) (r : Except Err (St F V))
    (h : run p lines n s = some r) : run p lines (n + k) s = some r := by
  induction n generalizing s with
  | zero =>
    by_cases hc : s.cur = lines.length
    · rw [run_done _ _ _ _ hc] at h ⊢
      exact h
    · rw [run, if_neg hc] at h
      cases h
  | succ n ih =>
    by_cases hc : s.cur = lines.length
    · rw [run_done _ _ _ _ hc] at h ⊢
      exact h
    · rw [show n + 1 + k = (n + k) + 1 from by omega, run, if_neg hc]
      rw [run, if_neg hc] at h
      cases hs : step p lines s with
      | error e => rw [hs] at h; exact h
      | ok s' => rw [hs] at h; exact ih s' h

theorem put_new {α : Type} (k : Tok) (v : α) (d : Dict α) (h : k ∉ d.map Prod.fst) : put k v d = d ++ [(k, v)] := by
  induction d with
  | nil => rfl
  | cons p ps ih =>
    simp only [List.map_cons, List.mem_cons, not_or] at h
    rw [put, if_neg (fun e => h.1 e.symm), ih h.2, List.cons_append]

theorem get_append_new {α : Type} (k : Tok) (v : α) (d : Dict α) (h : k ∉ d.map Prod.fst) (e : Dict α) :
    get k (d ++ (k, v) :: e) = some v := by
  induction d with
  | nil => simp [get]
  | cons p ps ih =>
    simp only [List.map_cons, List.mem_cons, not_or] at h
    rw [List.cons_append, get, if_neg (fun e => h.1 e.symm), ih h.2]

theorem get_none {α : Type} (k : Tok) (d : Dict α) (h : k ∉ d.map Prod.fst) : get k d = none := by
  induction d with
  | nil => rfl
  | cons p ps ih =>
    simp only [List.map_cons, List.mem_cons, not_or] at h
    rw [get, if_neg (fun e => h.1 e.symm), ih h.2]

theorem del_none {α : Type} (k : Tok) (d : Dict α) (h : k ∉ d.map Prod.fst) : del k d = d := by
  rw [del, List.filter_eq_self]
  intro a ha
  simp only [ne_eq, decide_not, Bool.not_eq_eq_eq_not, Bool.not_true, decide_eq_false_iff_not]
  intro e
  exact h (List.mem_map.2 ⟨a, ha, e⟩)

end NBK.Plain
