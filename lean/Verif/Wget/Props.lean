import Verif.Wget.Model
import Mathlib.Tactic.Push
set_option linter.unusedSimpArgs false
/-!
# C124: links, hosts and places
-/
namespace NBK.Wget

/-- A scheme and a host. -/
def IsBase (b : Str) : Prop := ∃ sch host : Str, sch ≠ [] ∧ (∀ c ∈ sch, schemeChar c = true) ∧ host ≠ [] ∧ '/' ∉ host ∧ b = sch ++ ':' :: '/' :: '/' :: host

theorem takeWhile_append_stop (f : Char → Bool) (a : Str) (c : Char) (t : Str) (h : ∀ x ∈ a, f x = true) (hc : f c = false) :
    (a ++ c :: t).takeWhile f = a ∧ (a ++ c :: t).dropWhile f = c :: t := by
  induction a with
  | nil => simp [hc]
  | cons x a ih =>
    have := ih fun y hy => h y (List.mem_cons_of_mem _ hy)
    simp [h x List.mem_cons_self, this.1, this.2]

theorem takeWhile_all (f : Char → Bool) (a : Str) (h : ∀ x ∈ a, f x = true) : a.takeWhile f = a ∧ a.dropWhile f = [] := by
  induction a with
  | nil => simp
  | cons x a ih =>
    have := ih fun y hy => h y (List.mem_cons_of_mem _ hy)
    simp [h x List.mem_cons_self, this.1, this.2]

theorem takeWhile_imp (f : Char → Bool) (a : Str) (x : Char) (h : x ∈ a.takeWhile f) : f x = true := by
  induction a with
  | nil => simp at h
  | cons c a ih =>
    rw [List.takeWhile_cons] at h
    split at h
    · rename_i hc
      rcases List.mem_cons.mp h with rfl | h
      · exact hc
      · exact ih h
    · cases h

/-- C124: a URL is a scheme and host followed by nothing or by a path. -/
theorem splitUrl_spec (s b p : Str) : splitUrl s = some (b, p) ↔ s = b ++ p ∧ IsBase b ∧ (p = [] ∨ ∃ q, p = '/' :: q) := by
  constructor
  · intro h
    unfold splitUrl at h
    dsimp only at h
    split at h
    · cases h
    rename_i hs
    split at h
    · rename_i t ht
      split at h
      · cases h
      rename_i hh
      injection h with h
      injection h with h1 h2
      have e : s = s.takeWhile schemeChar ++ s.dropWhile schemeChar := (List.takeWhile_append_dropWhile).symm
      have e2 : t = (t.takeWhile fun c => c != '/') ++ t.dropWhile fun c => c != '/' := (List.takeWhile_append_dropWhile).symm
      refine ⟨?_, ⟨_, _, hs, ?_, hh, ?_, h1.symm⟩, ?_⟩
      · rw [e, ht, ← h1, ← h2, List.append_assoc]
        simp only [List.cons_append]
        rw [← e2]
      · intro c hc
        exact takeWhile_imp _ _ c hc
      · intro hc
        have := takeWhile_imp _ _ _ hc
        simp at this
      · rw [← h2]
        cases hd : t.dropWhile fun c => c != '/' with
        | nil => exact Or.inl rfl
        | cons c q =>
          refine Or.inr ⟨q, ?_⟩
          have := List.head?_dropWhile_not (fun c => c != '/') t
          rw [hd] at this
          simp at this
          rw [this]
    · cases h
  · rintro ⟨rfl, ⟨sch, host, hs, hsc, hh, hhs, rfl⟩, hp⟩
    unfold splitUrl
    dsimp only
    have e : sch ++ ':' :: '/' :: '/' :: host ++ p = sch ++ ':' :: '/' :: '/' :: (host ++ p) := by simp
    obtain ⟨t1, t2⟩ := takeWhile_append_stop schemeChar sch ':' ('/' :: '/' :: (host ++ p)) hsc (by decide)
    rw [e, t1, t2, if_neg hs]
    have hall : ∀ x ∈ host, (fun c => c != '/') x = true := fun x hx => by
      have : x ≠ '/' := fun hy => hhs (hy ▸ hx)
      simpa using this
    have hw : (host ++ p).takeWhile (fun c => c != '/') = host ∧ (host ++ p).dropWhile (fun c => c != '/') = p := by
      rcases hp with rfl | ⟨q, rfl⟩
      · rw [List.append_nil]
        exact takeWhile_all _ _ hall
      · exact takeWhile_append_stop _ _ _ _ hall (by decide)
    show (if (host ++ p).takeWhile (fun c => c != '/') = [] then none
      else some (sch ++ ':' :: '/' :: '/' :: (host ++ p).takeWhile (fun c => c != '/'), (host ++ p).dropWhile (fun c => c != '/'))) = _
    rw [hw.1, hw.2, if_neg hh]

/-- C124: every link found on a page with an absolute URL is resolved to an absolute URL with a path, on the host of the page unless the link names one. -/
theorem resolve_absolute (link url b p : Str) (hu : splitUrl url = some (b, p)) (hl : link ≠ []) :
    ∃ r b' q, resolve link url = .ok r ∧ splitUrl r = some (b', '/' :: q) ∧ (splitUrl link = none → b' = b) ∧
      (∀ b0 p0, splitUrl link = some (b0, p0) → b' = b0) := by
  obtain ⟨hue, hub, hup⟩ := (splitUrl_spec _ _ _).mp hu
  unfold resolve
  cases hs : splitUrl link with
  | some bp =>
    obtain ⟨b0, p0⟩ := bp
    obtain ⟨he, hb, hp⟩ := (splitUrl_spec _ _ _).mp hs
    dsimp only
    rcases hp with rfl | ⟨q, rfl⟩
    · refine ⟨_, b0, [], rfl, ?_, (fun h => by cases h), ?_⟩
      · rw [if_pos rfl, splitUrl_spec]
        exact ⟨by rw [he, List.append_nil], hb, Or.inr ⟨[], rfl⟩⟩
      · intro b1 p1 h1
        injection h1 with h1
        injection h1 with h1 h2
    · refine ⟨_, b0, q, rfl, ?_, (fun h => by cases h), ?_⟩
      · rw [if_neg (by simp), hs]
      · intro b1 p1 h1
        injection h1 with h1
        injection h1 with h1 h2
  | none =>
    cases link with
    | nil => exact absurd rfl hl
    | cons c t =>
      dsimp only
      by_cases hc : c = '/'
      · rw [if_pos hc, hu]
        dsimp only
        refine ⟨_, b, t, rfl, ?_, (fun _ => rfl), (fun _ _ h => by cases h)⟩
        rw [splitUrl_spec]
        exact ⟨by rw [hc], hub, Or.inr ⟨t, rfl⟩⟩
      · rw [if_neg hc]
        have hne : url ≠ [] := by
          rw [hue]
          obtain ⟨sch, host, h1, _, _, _, h2⟩ := hub
          rw [h2]
          cases sch with
          | nil => exact absurd rfl h1
          | cons _ _ => simp
        obtain ⟨d, hd⟩ : ∃ d, url.getLast? = some d := ⟨url.getLast hne, List.getLast?_eq_some_getLast hne⟩
        rw [hd]
        dsimp only
        rcases hup with rfl | ⟨q, rfl⟩
        · -- the host does not end with a slash
          have hd' : d ≠ '/' := by
            intro hx
            obtain ⟨sch, host, _, _, hh, hhs, h2⟩ := hub
            rw [List.append_nil] at hue
            rw [hue, h2] at hd
            have : host.getLast? = some d := by
              rw [List.getLast?_append, List.getLast?_cons_cons, List.getLast?_cons_cons] at hd
              cases host with
              | nil => exact absurd rfl hh
              | cons a as =>
                rw [List.getLast?_cons_cons] at hd
                simpa using hd
            exact hhs (hx ▸ List.mem_of_getLast? this)
          rw [if_neg hd']
          refine ⟨_, b, c :: t, rfl, ?_, (fun _ => rfl), (fun _ _ h => by cases h)⟩
          rw [splitUrl_spec]
          exact ⟨by rw [hue, List.append_nil], hub, Or.inr ⟨_, rfl⟩⟩
        · by_cases hd' : d = '/'
          · rw [if_pos hd']
            refine ⟨_, b, q ++ c :: t, rfl, ?_, (fun _ => rfl), (fun _ _ h => by cases h)⟩
            rw [splitUrl_spec]
            exact ⟨by rw [hue]; simp, hub, Or.inr ⟨_, rfl⟩⟩
          · rw [if_neg hd']
            refine ⟨_, b, q ++ '/' :: c :: t, rfl, ?_, (fun _ => rfl), (fun _ _ h => by cases h)⟩
            rw [splitUrl_spec]
            exact ⟨by rw [hue]; simp, hub, Or.inr ⟨_, rfl⟩⟩

/-- C124: resolving a link that is resolved already changes nothing. -/
theorem resolve_again (link url url' : Str) (b p : Str) (hu : splitUrl url = some (b, p)) (r : Str) (h : resolve link url = .ok r) : resolve r url' = .ok r := by
  by_cases hl : link = []
  · subst hl
    cases h
  · obtain ⟨r', b', q, h1, h2, _⟩ := resolve_absolute link url b p hu hl
    rw [h] at h1
    injection h1 with h1
    subst h1
    unfold resolve
    rw [h2]
    rfl

/-! ## The URLs that are opened -/

variable (srv : Str → Page) (order : List Str → List Str)

/-- What a call may open: URLs that begin with its own. -/
def OpensBelow (rec : St → Str → Path → St × Option Err) : Prop := ∀ (st : St) (url : Str) (target : Path),
  ∃ us, (rec st url target).1.opened = st.opened ++ us ∧ ∀ u ∈ us, url <+: u

theorem visit_opened (rec : St → Str → Path → St × Option Err) (hr : OpensBelow rec) (url : Str) (target : Path) (ls : List Str) (st : St) (done : Bool) :
    ∃ us, (visit rec url target ls st done).1.opened = st.opened ++ us ∧ ∀ u ∈ us, url <+: u := by
  induction ls generalizing st done with
  | nil => exact ⟨[], by simp [visit], by simp⟩
  | cons l ls ih =>
    unfold visit
    cases hres : resolve l url with
    | error e => exact ⟨[], by simp, by simp⟩
    | ok r =>
      dsimp only
      by_cases h1 : ¬ url <+: strip r
      · rw [if_pos h1]
        exact ih st done
      · rw [if_neg h1]
        by_cases h2 : '?' ∈ lastName (strip r)
        · rw [if_pos h2]
          exact ih st done
        · rw [if_neg h2]
          push Not at h1
          generalize hst : ({ st with fs := if done then st.fs else mkdir st.fs target } : St) = st1
          have ho : st1.opened = st.opened := by rw [← hst]
          obtain ⟨us, e1, e2⟩ := hr st1 (strip r) (target ++ [lastName (strip r)])
          rw [ho] at e1
          have hb : ∀ u ∈ us, url <+: u := fun u hu => h1.trans (e2 u hu)
          cases hx : rec st1 (strip r) (target ++ [lastName (strip r)]) with
          | mk st2 er =>
            rw [hx] at e1
            dsimp only at e1
            cases er with
            | some e => exact ⟨us, e1, hb⟩
            | none =>
              dsimp only
              obtain ⟨vs, f1, f2⟩ := ih st2 true
              refine ⟨us ++ vs, by rw [f1, e1, List.append_assoc], ?_⟩
              intro u hu
              rcases List.mem_append.mp hu with hu | hu
              · exact hb u hu
              · exact f2 u hu

/-- C124: every URL that is opened begins with the URL asked for, whatever the server sends. -/
theorem opened_below (n : Nat) : OpensBelow (mirror srv order n) := by
  induction n with
  | zero =>
    intro st url target
    exact ⟨[], by simp [mirror], by simp⟩
  | succ n ih =>
    intro st url target
    unfold mirror
    dsimp only
    have one : ∀ (fs : Fs), ∃ us, (St.mk fs (st.opened ++ [url])).opened = st.opened ++ us ∧ ∀ u ∈ us, url <+: u := fun fs =>
      ⟨[url], rfl, fun u hu => by rw [List.mem_singleton.mp hu]; exact List.prefix_rfl⟩
    cases srv url with
    | fail e => exact one _
    | data chunks =>
      dsimp only
      cases write st.fs target (readAll chunks) with
      | error e => exact one _
      | ok fs => exact one _
    | html tags contents =>
      dsimp only
      cases links url tags with
      | error e => exact one _
      | ok ls =>
        dsimp only
        obtain ⟨us, e1, e2⟩ := visit_opened (mirror srv order n) ih url target (order ls) { st with opened := st.opened ++ [url] } false
        have both : ∃ us, (visit (mirror srv order n) url target (order ls) { st with opened := st.opened ++ [url] } false).1.opened = st.opened ++ us ∧
            ∀ u ∈ us, url <+: u := by
          refine ⟨url :: us, by rw [e1]; simp, ?_⟩
          intro u hu
          rcases List.mem_cons.mp hu with rfl | hu
          · exact List.prefix_rfl
          · exact e2 u hu
        generalize visit (mirror srv order n) url target (order ls) { st with opened := st.opened ++ [url] } false = v at both
        obtain ⟨st2, done, er⟩ := v
        cases er with
        | some e => exact both
        | none =>
          cases done with
          | true => exact both
          | false =>
            dsimp only at both ⊢
            by_cases hl : url.getLast? = some '/'
            · rw [if_pos hl]
              exact both
            · rw [if_neg hl]
              cases write st2.fs (htmlTarget target) contents with
              | error e => exact both
              | ok fs => exact both

/-- C124: if the URL has a path, everything that is opened is on the same host. -/
theorem same_host_partial (n : Nat) (st : St) (url : Str) (target : Path) (b q : Str) (hu : splitUrl url = some (b, '/' :: q)) :
    ∃ us, (mirror srv order n st url target).1.opened = st.opened ++ us ∧ ∀ u ∈ us, ∃ t, splitUrl u = some (b, '/' :: (q ++ t)) := by
  obtain ⟨us, e1, e2⟩ := opened_below srv order n st url target
  refine ⟨us, e1, fun u hx => ?_⟩
  obtain ⟨t, rfl⟩ := e2 u hx
  obtain ⟨he, hb, _⟩ := (splitUrl_spec _ _ _).mp hu
  refine ⟨t, (splitUrl_spec _ _ _).mpr ⟨by rw [he]; simp, hb, Or.inr ⟨_, rfl⟩⟩⟩

theorem href_iff (l : List (Str × Option Str)) (x : Str) : href l = some x ↔
    ∃ pre post, l = pre ++ ("href".toList, some x) :: post ∧ x ≠ [] ∧ ∀ p ∈ pre, p.1 = "href".toList → p.2 = none ∨ p.2 = some [] := by
  have hh : "href".toList = ['h', 'r', 'e', 'f'] := by decide
  rw [hh]
  induction l with
  | nil => simp [href]
  | cons p l ih =>
    obtain ⟨k, v⟩ := p
    by_cases hk : k = ['h', 'r', 'e', 'f']
    · subst hk
      match v with
      | none =>
        have e : href ((['h', 'r', 'e', 'f'], none) :: l) = href l := rfl
        rw [e]
        refine Iff.trans ih ?_
        constructor
        · rintro ⟨pre, post, rfl, hx, hp⟩
          refine ⟨(['h', 'r', 'e', 'f'], none) :: pre, post, rfl, hx, ?_⟩
          intro p hm
          rcases List.mem_cons.mp hm with rfl | hm
          · exact fun _ => Or.inl rfl
          · exact hp p hm
        · rintro ⟨pre, post, hl, hx, hp⟩
          cases pre with
          | nil => simp at hl
          | cons q pre =>
            simp only [List.cons_append, List.cons.injEq] at hl
            exact ⟨pre, post, hl.2, hx, fun p hm => hp p (List.mem_cons_of_mem _ hm)⟩
      | some [] =>
        have e : href ((['h', 'r', 'e', 'f'], some []) :: l) = href l := rfl
        rw [e]
        refine Iff.trans ih ?_
        constructor
        · rintro ⟨pre, post, rfl, hx, hp⟩
          refine ⟨(['h', 'r', 'e', 'f'], some []) :: pre, post, rfl, hx, ?_⟩
          intro p hm
          rcases List.mem_cons.mp hm with rfl | hm
          · exact fun _ => Or.inr rfl
          · exact hp p hm
        · rintro ⟨pre, post, hl, hx, hp⟩
          cases pre with
          | nil =>
            simp only [List.nil_append, List.cons.injEq, Prod.mk.injEq, Option.some.injEq, true_and] at hl
            exact absurd hl.1.symm hx
          | cons q pre =>
            simp only [List.cons_append, List.cons.injEq] at hl
            exact ⟨pre, post, hl.2, hx, fun p hm => hp p (List.mem_cons_of_mem _ hm)⟩
      | some (c :: s) =>
        have e : href ((['h', 'r', 'e', 'f'], some (c :: s)) :: l) = some (c :: s) := rfl
        rw [e]
        constructor
        · intro h
          cases h
          exact ⟨[], l, rfl, List.cons_ne_nil _ _, by simp⟩
        · rintro ⟨pre, post, hl, hx, hp⟩
          cases pre with
          | nil =>
            simp only [List.nil_append, List.cons.injEq, Prod.mk.injEq, Option.some.injEq, true_and] at hl
            rw [hl.1]
          | cons q pre =>
            simp only [List.cons_append, List.cons.injEq] at hl
            have := hp q List.mem_cons_self
            rw [← hl.1] at this
            simp at this
    · have e : href ((k, v) :: l) = href l := by
        unfold href
        rw [if_neg hk]
        cases l <;> rfl
      rw [e]
      refine Iff.trans ih ?_
      constructor
      · rintro ⟨pre, post, rfl, hx, hp⟩
        refine ⟨(k, v) :: pre, post, rfl, hx, ?_⟩
        intro p hm
        rcases List.mem_cons.mp hm with rfl | hm
        · exact fun h => absurd h hk
        · exact hp p hm
      · rintro ⟨pre, post, hl, hx, hp⟩
        cases pre with
        | nil =>
          simp only [List.nil_append, List.cons.injEq, Prod.mk.injEq] at hl
          exact absurd hl.1.1 hk
        | cons q pre =>
          simp only [List.cons_append, List.cons.injEq] at hl
          exact ⟨pre, post, hl.2, hx, fun p hm => hp p (List.mem_cons_of_mem _ hm)⟩

/-- The links of a page are the first values of `href` that are not empty, of the tags `a`: other tags and other attributes do not count. -/
theorem hrefs_spec (tags : List Tag) (x : Str) : x ∈ hrefs tags ↔ ∃ t ∈ tags, t.name = "a".toList ∧
    ∃ pre post, t.attrs = pre ++ ("href".toList, some x) :: post ∧ x ≠ [] ∧ ∀ p ∈ pre, p.1 = "href".toList → p.2 = none ∨ p.2 = some [] := by
  have ha : "a".toList = ['a'] := by decide
  rw [ha]
  unfold hrefs
  rw [List.mem_filterMap]
  constructor
  · rintro ⟨t, ht, h⟩
    by_cases hn : t.name = ['a']
    · rw [if_pos hn] at h
      exact ⟨t, ht, hn, (href_iff _ _).mp h⟩
    · rw [if_neg hn] at h; cases h
  · rintro ⟨t, ht, hn, h⟩
    exact ⟨t, ht, by rw [if_pos hn]; exact (href_iff _ _).mpr h⟩

example : hrefs [⟨"a".toList, [("name".toList, some "n".toList), ("href".toList, none), ("href".toList, some "x".toList), ("href".toList, some "y".toList)]⟩,
    ⟨"link".toList, [("href".toList, some "z".toList)]⟩] = ["x".toList] := by decide +kernel

/-- The letters of a scheme: `c://h` is a URL if and only if `c` is a letter, an underscore or a hyphen. -/
theorem scheme_letters (c h : Char) (hh : h ≠ '/') : (splitUrl [c, ':', '/', '/', h]).isSome = true ↔
    ('a' ≤ c ∧ c ≤ 'z') ∨ ('A' ≤ c ∧ c ≤ 'Z') ∨ c = '_' ∨ c = '-' := by
  have hc : schemeChar c = true ↔ ('a' ≤ c ∧ c ≤ 'z') ∨ ('A' ≤ c ∧ c ≤ 'Z') ∨ c = '_' ∨ c = '-' := by
    simp only [schemeChar, Char.isAlpha, Char.isUpper, Char.isLower, Bool.or_eq_true, beq_iff_eq, Bool.and_eq_true, decide_eq_true_eq]
    constructor
    · rintro (((h | h) | h) | h)
      · exact Or.inr (Or.inl h)
      · exact Or.inl h
      · exact Or.inr (Or.inr (Or.inl h))
      · exact Or.inr (Or.inr (Or.inr h))
    · rintro (h | h | h | h)
      · exact Or.inl (Or.inl (Or.inr h))
      · exact Or.inl (Or.inl (Or.inl h))
      · exact Or.inl (Or.inr h)
      · exact Or.inr h
  rw [← hc]
  have hq : schemeChar ':' = false := by decide
  by_cases hs : schemeChar c = true
  · have hb : (h != '/') = true := by simp [hh]
    simp [splitUrl, hs, hq, List.takeWhile, List.dropWhile, hb]
  · simp [splitUrl, hs, List.takeWhile, List.dropWhile]

end NBK.Wget
