import Verif.Wget.Props
set_option linter.unusedSimpArgs false
/-!
# C124: where files are written
-/
namespace NBK.Wget

def dotdot : Str := ['.', '.']

theorem normal_snoc (p : Path) (c : Str) :
    normal (p ++ [c]) = if c = [] ∨ c = ['.'] then normal p else if c = ['.', '.'] then (normal p).dropLast else normal p ++ [c] := by
  unfold normal
  rw [List.foldl_append]
  rfl

/-- A component that is not `..` does not lead upwards. -/
theorem normal_below (p : Path) (c : Str) (h : c ≠ dotdot) : normal p <+: normal (p ++ [c]) := by
  rw [normal_snoc]
  by_cases h1 : c = [] ∨ c = ['.']
  · rw [if_pos h1]
    exact List.prefix_rfl
  · rw [if_neg h1, if_neg (show ¬ c = ['.', '.'] from h)]
    exact ⟨[c], rfl⟩

theorem htmlTarget_snoc (p : Path) (c : Str) : htmlTarget (p ++ [c]) = p ++ [if isHtml c then c else c ++ ['.', 'h', 't', 'm', 'l']] := by
  induction p with
  | nil => rfl
  | cons a p ih =>
    cases p with
    | nil => rw [List.cons_append, List.nil_append, htmlTarget, List.cons_append, List.nil_append]; rfl; simp
    | cons b p =>
      rw [List.cons_append, List.cons_append, htmlTarget, List.cons_append, List.cons_append]
      · rw [List.cons_append, List.cons_append] at ih
        rw [ih]
      · simp

theorem html_not_up (c : Str) (h : c ≠ dotdot) : (if isHtml c then c else c ++ ['.', 'h', 't', 'm', 'l']) ≠ dotdot := by
  by_cases hc : isHtml c = true
  · rw [if_pos hc]
    exact h
  · rw [if_neg hc]
    intro hx
    have := congrArg List.length hx
    simp [dotdot] at this

/-- The places that a call for the target may change. -/
def Allowed (target : Path) (x : Path) : Prop := normal target <+: x ∨ x = normal (htmlTarget target)

theorem allowed_up (target : Path) (c : Str) (h : c ≠ dotdot) (x : Path) (hx : Allowed (target ++ [c]) x) : normal target <+: x := by
  rcases hx with hx | hx
  · exact (normal_below target c h).trans hx
  · rw [hx, htmlTarget_snoc]
    exact normal_below target _ (html_not_up c h)

theorem mkdir_changes (fs : Fs) (target : Path) (x : Path) (h : mkdir fs target x ≠ fs x) : x = normal target := by
  unfold mkdir at h
  split at h
  · unfold put at h
    by_contra hx
    rw [if_neg hx] at h
    exact h rfl
  · exact absurd rfl h

theorem write_changes (fs fs' : Fs) (target : Path) (bytes : List Nat) (h : write fs target bytes = .ok fs') (x : Path) (hx : fs' x ≠ fs x) : x = normal target := by
  unfold write at h
  dsimp only at h
  split at h
  · cases h
  · injection h with h
    rw [← h] at hx
    unfold put at hx
    by_contra hn
    rw [if_neg hn] at hx
    exact hx rfl

variable (srv : Str → Page) (order : List Str → List Str)

/-- No page below the URL has a link whose last part is `..`. -/
def NoUp (url : Str) : Prop := ∀ u tags c ls l r, url <+: u → srv u = .html tags c → links u tags = .ok ls → l ∈ ls → resolve l u = .ok r →
  lastName (strip r) ≠ dotdot

/-- What a call may change. -/
def Stays (rec : St → Str → Path → St × Option Err) (url : Str) : Prop := ∀ (st : St) (u : Str) (target : Path) (x : Path), url <+: u →
  (rec st u target).1.fs x ≠ st.fs x → Allowed target x

theorem visit_stays (rec : St → Str → Path → St × Option Err) (root url : Str) (hr : Stays rec root) (hroot : root <+: url) (target : Path) (ls : List Str)
    (hn : ∀ l ∈ ls, ∀ r, resolve l url = .ok r → lastName (strip r) ≠ dotdot) (st : St) (done : Bool) (x : Path)
    (hx : (visit rec url target ls st done).1.fs x ≠ st.fs x) : normal target <+: x := by
  induction ls generalizing st done with
  | nil => exact absurd rfl hx
  | cons l ls ih =>
    have ih := ih fun m hm => hn m (List.mem_cons_of_mem _ hm)
    unfold visit at hx
    cases hres : resolve l url with
    | error e => rw [hres] at hx; exact absurd rfl hx
    | ok r =>
      rw [hres] at hx
      dsimp only at hx
      by_cases h1 : ¬ url <+: strip r
      · rw [if_pos h1] at hx
        exact ih st done hx
      · rw [if_neg h1] at hx
        by_cases h2 : '?' ∈ lastName (strip r)
        · rw [if_pos h2] at hx
          exact ih st done hx
        · rw [if_neg h2] at hx
          push Not at h1
          generalize hst : ({ st with fs := if done then st.fs else mkdir st.fs target } : St) = st1 at hx
          have hst1 : st1.fs x ≠ st.fs x → normal target <+: x := by
            intro hy
            rw [← hst] at hy
            dsimp only at hy
            cases done with
            | true => exact absurd rfl hy
            | false =>
              rw [mkdir_changes _ _ _ hy]
              exact List.prefix_rfl
          have hup := hn l List.mem_cons_self r hres
          have hcall : (rec st1 (strip r) (target ++ [lastName (strip r)])).1.fs x ≠ st1.fs x → normal target <+: x := fun hy =>
            allowed_up target _ hup x (hr st1 (strip r) _ x (hroot.trans h1) hy)
          cases he : rec st1 (strip r) (target ++ [lastName (strip r)]) with
          | mk st2 er =>
            rw [he] at hx hcall
            dsimp only at hx hcall
            have two : st2.fs x ≠ st.fs x → normal target <+: x := fun hy => by
              by_cases hz : st2.fs x = st1.fs x
              · exact hst1 (by rw [← hz]; exact hy)
              · exact hcall hz
            cases er with
            | some e => exact two hx
            | none =>
              dsimp only at hx
              by_cases hz : (visit rec url target ls st2 true).1.fs x = st2.fs x
              · exact two (by rw [← hz]; exact hx)
              · exact ih st2 true hz

theorem mirror_stays (root : Str) (hn : NoUp srv root) (hord : ∀ l x, x ∈ order l → x ∈ l) (n : Nat) : Stays (mirror srv order n) root := by
  induction n with
  | zero =>
    intro st u target x _ hx
    exact absurd rfl hx
  | succ n ih =>
    intro st u target x hu hx
    unfold mirror at hx
    dsimp only at hx
    cases hp : srv u with
    | fail e => rw [hp] at hx; exact absurd rfl hx
    | data chunks =>
      rw [hp] at hx
      dsimp only at hx
      cases hw : write st.fs target (readAll chunks) with
      | error e => rw [hw] at hx; exact absurd rfl hx
      | ok fs =>
        rw [hw] at hx
        rw [Allowed, write_changes _ _ _ _ hw x hx]
        exact Or.inl List.prefix_rfl
    | html tags contents =>
      rw [hp] at hx
      dsimp only at hx
      cases hl : links u tags with
      | error e => rw [hl] at hx; exact absurd rfl hx
      | ok ls =>
        rw [hl] at hx
        dsimp only at hx
        have hv := visit_stays (mirror srv order n) root u ih hu target (order ls)
          (fun l hm r hr => hn u tags contents ls l r hu hp hl (hord _ _ hm) hr) { st with opened := st.opened ++ [u] } false x
        generalize visit (mirror srv order n) u target (order ls) { st with opened := st.opened ++ [u] } false = v at hv hx
        obtain ⟨st2, done, er⟩ := v
        dsimp only at hv
        cases er with
        | some e => exact Or.inl (hv hx)
        | none =>
          cases done with
          | true => exact Or.inl (hv hx)
          | false =>
            dsimp only at hx
            by_cases hs : u.getLast? = some '/'
            · rw [if_pos hs] at hx
              exact Or.inl (hv hx)
            · rw [if_neg hs] at hx
              cases hw : write st2.fs (htmlTarget target) contents with
              | error e => rw [hw] at hx; exact Or.inl (hv hx)
              | ok fs =>
                rw [hw] at hx
                dsimp only at hx
                by_cases hz : st2.fs x = st.fs x
                · exact Or.inr (write_changes _ _ _ _ hw x (by rw [hz]; exact hx))
                · exact Or.inl (hv hz)

/-- C124: if no page has a link that ends with `..`, files and directories are made below the target only, or the target with `.html` added. -/
theorem stays_below_partial (url : Str) (hn : NoUp srv url) (hord : ∀ l x, x ∈ order l → x ∈ l) (n : Nat) (st : St) (target : Path) (x : Path)
    (hx : (mirror srv order n st url target).1.fs x ≠ st.fs x) : normal target <+: x ∨ x = normal (htmlTarget target) :=
  mirror_stays srv order url hn hord n st url target x List.prefix_rfl hx

/-- C124: the file holds all the pieces, however the server cuts them. -/
theorem readAll_flatten (cs : List (List Nat)) (h : ∀ c ∈ cs, c ≠ []) : readAll cs = cs.flatten := by
  induction cs with
  | nil => rfl
  | cons c cs ih =>
    rw [readAll, if_neg (h c List.mem_cons_self), ih fun d hd => h d (List.mem_cons_of_mem _ hd)]
    rfl

end NBK.Wget
