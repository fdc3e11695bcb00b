import Verif.Wget.SafeProps
set_option linter.unusedSimpArgs false
/-!
# C124: the mirror of a directory tree

A site is a tree of directories and files. A server shows each directory as a page with a link for each member (with or without a slash at the end) and any
number of links that lead elsewhere or have a query. The mirror makes just that tree.
-/
namespace NBK.Wget

inductive Item where
  | file (bytes : List Nat)
  | dir (names : List Str)

def Item.node : Item → Node
  | .file b => .file b
  | .dir _ => .dir

abbrev Site := Path → Option Item

/-- A name of a file. -/
def GoodName (n : Str) : Prop := n ≠ [] ∧ '/' ∉ n ∧ '?' ∉ n ∧ n ≠ ['.'] ∧ n ≠ ['.', '.']

/-- The URL of a place. -/
def urlOf (root : Str) (p : Path) : Str := root ++ p.flatMap fun n => '/' :: n

/-- What is found by following the names from a place. -/
def find (site : Site) : Path → Path → Option Item
  | p, [] => site p
  | p, n :: q => match site p with
    | some (.dir names) => if n ∈ names then find site (p ++ [n]) q else none
    | _ => none

/-- The tree below the place has at most so many levels. -/
def Fits (site : Site) : Nat → Path → Prop
  | 0, _ => False
  | k + 1, p => match site p with
    | some (.file _) => True
    | some (.dir names) => ∀ n ∈ names, Fits site k (p ++ [n])
    | none => False

/-- A link that the mirror passes over. -/
def Junk (url h : Str) : Prop := ∃ r, resolve h (url ++ ['/']) = .ok r ∧ (¬ url <+: strip r ∨ '?' ∈ lastName (strip r))

/-- The server shows the site. -/
def Serves (srv : Str → Page) (root : Str) (site : Site) : Prop := ∀ p, match site p with
  | none => True
  | some (.file b) => ∃ chunks, srv (urlOf root p) = .data chunks ∧ (∀ c ∈ chunks, c ≠ []) ∧ chunks.flatten = b
  | some (.dir names) => names ≠ [] ∧ (∀ n ∈ names, GoodName n) ∧ ∃ tags contents, srv (urlOf root p) = .html tags contents ∧
      (∀ n ∈ names, n ∈ hrefs tags ∨ n ++ ['/'] ∈ hrefs tags) ∧
      ∀ h ∈ hrefs tags, (∃ n ∈ names, h = n ∨ h = n ++ ['/']) ∨ Junk (urlOf root p) h

/-- What the tree puts at a local path. -/
def plan (site : Site) (p T x : Path) : Option Node := if T <+: x then (find site p (x.drop T.length)).map Item.node else none

/-- The local files with the tree. -/
def planted (pl : Path → Option Node) (fs : Fs) : Fs := fun x => match pl x with
  | some nd => some nd
  | none => fs x

/-- The same kind of thing. -/
def sameKind : Node → Node → Bool
  | .dir, .dir => true
  | .file _, .file _ => true
  | _, _ => false

/-- What exists already is of the right kind. -/
def Compatible (pl : Path → Option Node) (fs : Fs) : Prop := ∀ x nd old, pl x = some nd → fs x = some old → sameKind old nd = true

/-! ## Links -/

def GoodUrl (u : Str) : Prop := (∃ b p, splitUrl u = some (b, p)) ∧ u.getLast? ≠ some '/'

theorem base_slashes (b : Str) (h : IsBase b) : 2 ≤ b.count '/' := by
  obtain ⟨sch, host, _, _, _, _, rfl⟩ := h
  rw [List.count_append, List.count_cons_of_ne (by decide), List.count_cons_self, List.count_cons_self]
  omega

theorem few_slashes (s : Str) (h : s.count '/' ≤ 1) : splitUrl s = none := by
  cases hs : splitUrl s with
  | none => rfl
  | some bp =>
    obtain ⟨b, p⟩ := bp
    obtain ⟨he, hb, _⟩ := (splitUrl_spec _ _ _).mp hs
    have := base_slashes b hb
    rw [he, List.count_append] at h
    omega

theorem good_snoc (u n : Str) (hu : GoodUrl u) (hn : GoodName n) : GoodUrl (u ++ '/' :: n) := by
  obtain ⟨⟨b, p, hs⟩, _⟩ := hu
  obtain ⟨he, hb, hp⟩ := (splitUrl_spec _ _ _).mp hs
  constructor
  · refine ⟨b, p ++ '/' :: n, (splitUrl_spec _ _ _).mpr ⟨by rw [he, List.append_assoc], hb, Or.inr ?_⟩⟩
    rcases hp with rfl | ⟨q, rfl⟩
    · exact ⟨n, rfl⟩
    · exact ⟨q ++ '/' :: n, rfl⟩
  · intro hl
    have hne := hn.1
    rw [List.getLast?_append] at hl
    cases n with
    | nil => exact hne rfl
    | cons c n =>
      rw [List.getLast?_cons_cons] at hl
      have : (c :: n).getLast? = some '/' := by simpa using hl
      exact hn.2.1 (List.mem_of_getLast? this)

theorem good_split (u : Str) (hu : GoodUrl u) : ∃ b q, splitUrl (u ++ ['/']) = some (b, q) := by
  obtain ⟨⟨b, p, hs⟩, _⟩ := hu
  obtain ⟨he, hb, hp⟩ := (splitUrl_spec _ _ _).mp hs
  refine ⟨b, p ++ ['/'], (splitUrl_spec _ _ _).mpr ⟨by rw [he, List.append_assoc], hb, Or.inr ?_⟩⟩
  rcases hp with rfl | ⟨q, rfl⟩
  · exact ⟨[], rfl⟩
  · exact ⟨q ++ ['/'], rfl⟩

theorem resolve_relative (u h : Str) (h1 : splitUrl h = none) (h2 : h ≠ []) (h3 : h.head? ≠ some '/') : resolve h (u ++ ['/']) = .ok (u ++ '/' :: h) := by
  unfold resolve
  rw [h1]
  dsimp only
  cases h with
  | nil => exact absurd rfl h2
  | cons c t =>
    dsimp only
    have hc : c ≠ '/' := fun hx => h3 (by rw [hx]; rfl)
    rw [if_neg hc, List.getLast?_concat]
    dsimp only
    rw [if_pos rfl, List.append_assoc]
    rfl

theorem resolve_name (u n : Str) (hn : GoodName n) : resolve n (u ++ ['/']) = .ok (u ++ '/' :: n) := by
  refine resolve_relative u n (few_slashes n ?_) hn.1 ?_
  · rw [List.count_eq_zero_of_not_mem hn.2.1]
    omega
  · intro hx
    exact hn.2.1 (List.mem_of_mem_head? hx)

theorem resolve_name_slash (u n : Str) (hn : GoodName n) : resolve (n ++ ['/']) (u ++ ['/']) = .ok (u ++ '/' :: (n ++ ['/'])) := by
  refine resolve_relative u _ (few_slashes _ ?_) (by simp) ?_
  · rw [List.count_append, List.count_eq_zero_of_not_mem hn.2.1]
    decide
  · intro hx
    rw [List.head?_append] at hx
    cases n with
    | nil => exact hn.1 rfl
    | cons c n =>
      have : c = '/' := by simpa using hx
      exact hn.2.1 (this ▸ List.mem_cons_self)

theorem strip_name (u n : Str) (hu : GoodUrl u) (hn : GoodName n) : strip (u ++ '/' :: n) = u ++ '/' :: n := by
  unfold strip
  rw [if_neg (good_snoc u n hu hn).2]

theorem strip_slash (s : Str) : strip (s ++ ['/']) = s := by
  unfold strip
  rw [List.getLast?_concat, if_pos rfl, List.dropLast_concat]

theorem lastName_name (u n : Str) (hn : GoodName n) : lastName (u ++ '/' :: n) = n := by
  unfold lastName
  have hr : (u ++ '/' :: n).reverse = n.reverse ++ '/' :: u.reverse := by simp
  rw [hr, (takeWhile_append_stop (fun c => c != '/') n.reverse '/' u.reverse (fun x hx => by
    have : x ≠ '/' := fun hy => hn.2.1 (hy ▸ List.mem_reverse.mp hx)
    simpa using this) (by decide)).1, List.reverse_reverse]

/-- What a link of the set is. -/
def Sorted (url : Str) (names : List Str) (l : Str) : Prop := resolve l url = .ok l ∧
  ((∃ n ∈ names, strip l = url ++ '/' :: n) ∨ ¬ url <+: strip l ∨ '?' ∈ lastName (strip l))

theorem resolveAll_spec (url : Str) (hs ls : List Str) : resolveAll url hs = .ok ls ↔ hs.map (fun h => resolve h url) = ls.map .ok := by
  induction hs generalizing ls with
  | nil =>
    cases ls with
    | nil => simp [resolveAll]
    | cons l ls => simp [resolveAll]
  | cons h hs ih =>
    unfold resolveAll
    cases hr : resolve h url with
    | error e =>
      cases ls with
      | nil => simp
      | cons l ls => simp [hr]
    | ok r =>
      dsimp only
      cases ls with
      | nil =>
        cases hx : resolveAll url hs with
        | error e => simp [Except.map]
        | ok rs => simp [Except.map]
      | cons l ls =>
        rw [List.map_cons, List.map_cons, hr]
        cases hx : resolveAll url hs with
        | error e =>
          constructor
          · intro h1; cases h1
          · intro h1
            injection h1 with h1 h2
            rw [(ih ls).mpr h2] at hx
            cases hx
        | ok rs =>
          constructor
          · intro h1
            injection h1 with h1
            injection h1 with h1 h2
            rw [h1, (ih ls).mp (by rw [hx, h2])]
          · intro h1
            injection h1 with h1 h2
            injection h1 with h1
            have := (ih ls).mpr h2
            rw [hx] at this
            injection this with this
            rw [h1, this]
            rfl

/-- The set of links of the page of a directory. -/
theorem links_sorted (u : Str) (hu : GoodUrl u) (names : List Str) (hg : ∀ n ∈ names, GoodName n) (tags : List Tag)
    (h1 : ∀ n ∈ names, n ∈ hrefs tags ∨ n ++ ['/'] ∈ hrefs tags)
    (h2 : ∀ h ∈ hrefs tags, (∃ n ∈ names, h = n ∨ h = n ++ ['/']) ∨ Junk u h) :
    ∃ ls, links u tags = .ok ls ∧ (∀ l ∈ ls, Sorted u names l) ∧ ∀ n ∈ names, ∃ l ∈ ls, strip l = u ++ '/' :: n := by
  obtain ⟨b, q, hsp⟩ := good_split u hu
  have each : ∀ h ∈ hrefs tags, ∃ r, resolve h (u ++ ['/']) = .ok r ∧ Sorted u names r := by
    intro h hh
    rcases h2 h hh with ⟨n, hn, rfl | rfl⟩ | ⟨r, hr, hj⟩
    · have hr := resolve_name u h (hg h hn)
      exact ⟨_, hr, resolve_again _ _ u _ _ hsp _ hr, Or.inl ⟨h, hn, strip_name u h hu (hg h hn)⟩⟩
    · have hr := resolve_name_slash u n (hg n hn)
      refine ⟨_, hr, resolve_again _ _ u _ _ hsp _ hr, Or.inl ⟨n, hn, ?_⟩⟩
      have : u ++ '/' :: (n ++ ['/']) = (u ++ '/' :: n) ++ ['/'] := by simp
      rw [this, strip_slash]
    · exact ⟨r, hr, resolve_again _ _ u _ _ hsp _ hr, Or.inr hj⟩
  have all : ∀ hs : List Str, (∀ h ∈ hs, h ∈ hrefs tags) → ∃ ls, resolveAll (u ++ ['/']) hs = .ok ls ∧ (∀ l ∈ ls, Sorted u names l) := by
    intro hs
    induction hs with
    | nil => exact fun _ => ⟨[], rfl, by simp⟩
    | cons h hs ih =>
      intro hm
      obtain ⟨r, hr, hx⟩ := each h (hm h List.mem_cons_self)
      obtain ⟨ls, hl, hy⟩ := ih fun k hk => hm k (List.mem_cons_of_mem _ hk)
      refine ⟨r :: ls, ?_, ?_⟩
      · unfold resolveAll
        rw [hr, hl]
        rfl
      · intro l hl
        rcases List.mem_cons.mp hl with rfl | hl
        · exact hx
        · exact hy l hl
  obtain ⟨ls, hl, hy⟩ := all (hrefs tags) fun _ h => h
  refine ⟨ls.dedup, ?_, fun l hx => hy l (List.mem_dedup.mp hx), ?_⟩
  · unfold links
    have hne : u ≠ [] := by
      rintro rfl
      obtain ⟨⟨b, p, hs⟩, _⟩ := hu
      cases hs
    rw [List.getLast?_eq_some_getLast hne]
    dsimp only
    have : u.getLast hne ≠ '/' := fun hx => hu.2 (by rw [List.getLast?_eq_some_getLast hne, hx])
    rw [if_neg this, hl]
    rfl
  · intro n hn
    have hmap := (resolveAll_spec _ _ _).mp hl
    have mem : ∀ h r, h ∈ hrefs tags → resolve h (u ++ ['/']) = .ok r → r ∈ ls := by
      intro h r hh hr
      have : (Except.ok r : Except Err Str) ∈ ls.map .ok := by
        rw [← hmap]
        exact List.mem_map.mpr ⟨h, hh, hr⟩
      obtain ⟨l, hl, he⟩ := List.mem_map.mp this
      injection he with he
      exact he ▸ hl
    rcases h1 n hn with hh | hh
    · exact ⟨_, List.mem_dedup.mpr (mem _ _ hh (resolve_name u n (hg n hn))), strip_name u n hu (hg n hn)⟩
    · refine ⟨_, List.mem_dedup.mpr (mem _ _ hh (resolve_name_slash u n (hg n hn))), ?_⟩
      have : u ++ '/' :: (n ++ ['/']) = (u ++ '/' :: n) ++ ['/'] := by simp
      rw [this, strip_slash]

/-! ## The plan -/

theorem plan_append (site : Site) (p T q : Path) : plan site p T (T ++ q) = (find site p q).map Item.node := by
  unfold plan
  rw [if_pos ⟨q, rfl⟩, List.drop_left]

theorem plan_child (site : Site) (p T : Path) (names : List Str) (n : Str) (hs : site p = some (.dir names)) (hn : n ∈ names) (q : Path) :
    plan site p T (T ++ n :: q) = plan site (p ++ [n]) (T ++ [n]) (T ++ n :: q) := by
  have e : T ++ n :: q = (T ++ [n]) ++ q := by simp
  rw [plan_append]
  conv_rhs => rw [e, plan_append]
  rw [find, hs]
  dsimp only
  rw [if_pos hn]

theorem plan_child_some (site : Site) (p T : Path) (names : List Str) (n : Str) (hs : site p = some (.dir names)) (hn : n ∈ names) (x : Path) (nd : Node)
    (hx : plan site (p ++ [n]) (T ++ [n]) x = some nd) : plan site p T x = some nd := by
  have hp : T ++ [n] <+: x := by
    by_contra hc
    unfold plan at hx
    rw [if_neg hc] at hx
    cases hx
  obtain ⟨q, rfl⟩ := hp
  have e : T ++ [n] ++ q = T ++ n :: q := by simp
  rw [e] at hx ⊢
  rw [plan_child site p T names n hs hn]
  exact hx

theorem normal_good (p : Path) (n : Str) (hn : GoodName n) : normal (p ++ [n]) = normal p ++ [n] := by
  rw [normal_snoc, if_neg (by rintro (h | h); exact hn.1 h; exact hn.2.2.2.1 h), if_neg hn.2.2.2.2]

theorem urlOf_snoc (root : Str) (p : Path) (n : Str) : urlOf root (p ++ [n]) = urlOf root p ++ '/' :: n := by
  unfold urlOf
  rw [List.flatMap_append, List.append_assoc]
  simp

/-- A call that makes the tree below the place. -/
def Makes (rec : St → Str → Path → St × Option Err) (root : Str) (site : Site) (p : Path) : Prop := ∀ (st : St) (target : Path), normal target ≠ [] →
  isDir st.fs (normal target).dropLast = true → Compatible (plan site p (normal target)) st.fs →
  ∃ st', rec st (urlOf root p) target = (st', none) ∧ st'.fs = planted (plan site p (normal target)) st.fs

/-- Between the files before and after. -/
def Between (pl : Path → Option Node) (fs0 fs : Fs) : Prop := ∀ x, fs x = fs0 x ∨ ∃ nd, pl x = some nd ∧ fs x = some nd

theorem between_compatible (pl : Path → Option Node) (fs0 fs : Fs) (h : Compatible pl fs0) (hb : Between pl fs0 fs) : Compatible pl fs := by
  intro x nd old hp ho
  rcases hb x with hx | ⟨nd', h1, h2⟩
  · exact h x nd old hp (hx ▸ ho)
  · rw [h1] at hp
    injection hp with hp
    rw [h2] at ho
    injection ho with ho
    rw [← hp, ← ho]
    cases nd' <;> rfl

/-- The loop over the links of a directory. -/
theorem visit_makes (rec : St → Str → Path → St × Option Err) (root : Str) (site : Site) (p : Path) (names : List Str) (hs : site p = some (.dir names))
    (hg : ∀ n ∈ names, GoodName n) (hrec : ∀ n ∈ names, Makes rec root site (p ++ [n])) (target : Path) (hT : normal target ≠ []) (fs0 : Fs)
    (hd : isDir fs0 (normal target).dropLast = true) (hc : Compatible (plan site p (normal target)) fs0) (ls : List Str)
    (hl : ∀ l ∈ ls, Sorted (urlOf root p) names l) (V : List Str) (hV : ∀ n ∈ V, n ∈ names) (st : St) (done : Bool)
    (hb : Between (plan site p (normal target)) fs0 st.fs) (hdone : done = true → st.fs (normal target) = some .dir)
    (hvis : ∀ n ∈ V, done = true ∧ ∀ q, plan site p (normal target) (normal target ++ n :: q) ≠ none →
      st.fs (normal target ++ n :: q) = plan site p (normal target) (normal target ++ n :: q)) :
    ∃ st' done', visit rec (urlOf root p) target ls st done = (st', done', none) ∧ Between (plan site p (normal target)) fs0 st'.fs ∧
      (done' = true → st'.fs (normal target) = some .dir) ∧
      ∀ n, n ∈ names → (n ∈ V ∨ ∃ l ∈ ls, strip l = urlOf root p ++ '/' :: n) → done' = true ∧
        ∀ q, plan site p (normal target) (normal target ++ n :: q) ≠ none →
          st'.fs (normal target ++ n :: q) = plan site p (normal target) (normal target ++ n :: q) := by
  induction ls generalizing V st done with
  | nil =>
    refine ⟨st, done, rfl, hb, hdone, ?_⟩
    intro n hn h
    rcases h with h | ⟨l, hl, _⟩
    · exact hvis n h
    · cases hl
  | cons l ls ih =>
    have ih := ih fun m hm => hl m (List.mem_cons_of_mem _ hm)
    obtain ⟨hr, hk⟩ := hl l List.mem_cons_self
    have skip : (∀ n ∈ names, ¬ strip l = urlOf root p ++ '/' :: n) → ∀ n, n ∈ names → (n ∈ V ∨ ∃ m ∈ l :: ls, strip m = urlOf root p ++ '/' :: n) →
        (n ∈ V ∨ ∃ m ∈ ls, strip m = urlOf root p ++ '/' :: n) := by
      intro hno n hn h
      rcases h with h | ⟨m, hm, he⟩
      · exact Or.inl h
      · rcases List.mem_cons.mp hm with rfl | hm
        · exact absurd he (hno n hn)
        · exact Or.inr ⟨m, hm, he⟩
    unfold visit
    rw [hr]
    dsimp only
    by_cases h1 : ¬ urlOf root p <+: strip l
    · rw [if_pos h1]
      obtain ⟨st', d', e1, e2, e3, e4⟩ := ih V hV st done hb hdone hvis
      exact ⟨st', d', e1, e2, e3, fun n hn h => e4 n hn (skip (fun m _ hx => h1 (hx ▸ ⟨'/' :: m, rfl⟩)) n hn h)⟩
    rw [if_neg h1]
    by_cases h2 : '?' ∈ lastName (strip l)
    · rw [if_pos h2]
      obtain ⟨st', d', e1, e2, e3, e4⟩ := ih V hV st done hb hdone hvis
      refine ⟨st', d', e1, e2, e3, fun n hn h => e4 n hn (skip (fun m hm hx => ?_) n hn h)⟩
      rw [hx, lastName_name _ _ (hg m hm)] at h2
      exact (hg m hm).2.2.1 h2
    rw [if_neg h2]
    obtain ⟨n, hn, he⟩ : ∃ n ∈ names, strip l = urlOf root p ++ '/' :: n := by
      rcases hk with hk | hk | hk
      · exact hk
      · exact absurd hk h1
      · exact absurd hk h2
    have hT0 : plan site p (normal target) (normal target) = some .dir := by
      have := plan_append site p (normal target) []
      rw [List.append_nil] at this
      rw [this, find, hs]
      rfl
    rw [he, lastName_name _ _ (hg n hn), ← urlOf_snoc]
    -- the directory
    generalize hst : ({ st with fs := if done then st.fs else mkdir st.fs target } : St) = st1
    have hpar : st.fs (normal target).dropLast = fs0 (normal target).dropLast := by
      rcases hb (normal target).dropLast with hx | ⟨nd, hx, _⟩
      · exact hx
      · exfalso
        unfold plan at hx
        rw [if_neg] at hx
        · cases hx
        · intro hpre
          have := hpre.length_le
          rw [List.length_dropLast] at this
          have := List.length_pos_iff.mpr hT
          omega
    have hpd : isDir st.fs (normal target).dropLast = true := by
      unfold isDir at hd ⊢
      rw [hpar]
      exact hd
    have hst1 : st1.fs (normal target) = some .dir ∧ (∀ x, x ≠ normal target → st1.fs x = st.fs x) := by
      rw [← hst]
      dsimp only
      cases done with
      | true => exact ⟨hdone rfl, fun _ _ => rfl⟩
      | false =>
        rw [if_neg (by simp)]
        unfold mkdir
        by_cases hx : st.fs (normal target) = none ∧ normal target ≠ [] ∧ isDir st.fs (normal target).dropLast = true
        · rw [if_pos hx]
          refine ⟨by unfold put; rw [if_pos rfl], fun x hy => by unfold put; rw [if_neg hy]⟩
        · rw [if_neg hx]
          refine ⟨?_, fun _ _ => rfl⟩
          cases hold : st.fs (normal target) with
          | none => exact absurd ⟨hold, hT, hpd⟩ hx
          | some old =>
            have := between_compatible _ _ _ hc hb _ _ _ hT0 hold
            cases old with
            | dir => rfl
            | file b => cases this
    have hb1 : Between (plan site p (normal target)) fs0 st1.fs := by
      intro x
      by_cases hx : x = normal target
      · rw [hx]
        exact Or.inr ⟨.dir, hT0, hst1.1⟩
      · rw [hst1.2 x hx]
        exact hb x
    -- the member
    have hnt : normal (target ++ [n]) = normal target ++ [n] := normal_good target n (hg n hn)
    obtain ⟨st2, r1, r2⟩ := hrec n hn st1 (target ++ [n]) (by rw [hnt]; simp) (by
      rw [hnt, List.dropLast_concat]
      unfold isDir
      rw [hst1.1]
      simp) (by
      rw [hnt]
      intro x nd old hx ho
      exact between_compatible _ _ _ hc hb1 x nd old (plan_child_some site p _ names n hs hn x nd hx) ho)
    rw [r1]
    dsimp only
    rw [hnt] at r2
    have hb2 : Between (plan site p (normal target)) fs0 st2.fs := by
      intro x
      rw [r2]
      unfold planted
      cases hx : plan site (p ++ [n]) (normal target ++ [n]) x with
      | none => exact hb1 x
      | some nd => exact Or.inr ⟨nd, plan_child_some site p _ names n hs hn x nd hx, rfl⟩
    have hd2 : st2.fs (normal target) = some .dir := by
      rw [r2]
      unfold planted
      have : plan site (p ++ [n]) (normal target ++ [n]) (normal target) = none := by
        unfold plan
        rw [if_neg]
        intro hpre
        have := hpre.length_le
        rw [List.length_append, List.length_singleton] at this
        omega
      rw [this]
      exact hst1.1
    obtain ⟨st', d', e1, e2, e3, e4⟩ := ih (n :: V) (by
        intro m hm
        rcases List.mem_cons.mp hm with rfl | hm
        · exact hn
        · exact hV m hm) st2 true hb2 (fun _ => hd2) (by
        intro m hm
        refine ⟨rfl, fun q hq => ?_⟩
        rw [r2]
        unfold planted
        cases hx : plan site (p ++ [n]) (normal target ++ [n]) (normal target ++ m :: q) with
        | some nd => exact (plan_child_some site p _ names n hs hn _ nd hx).symm
        | none =>
          dsimp only
          rcases List.mem_cons.mp hm with rfl | hm
          · rw [plan_child site p _ names m hs hn] at hq
            exact absurd hx hq
          · rw [hst1.2 _ (by simp)]
            exact (hvis m hm).2 q hq)
    refine ⟨st', d', e1, e2, e3, fun m hm h => e4 m hm ?_⟩
    rcases h with h | ⟨k, hk, hke⟩
    · exact Or.inl (List.mem_cons_of_mem _ h)
    · rcases List.mem_cons.mp hk with rfl | hk
      · rw [he] at hke
        have := List.append_cancel_left hke
        injection this with _ this
        exact Or.inl (this ▸ List.mem_cons_self)
      · exact Or.inr ⟨k, hk, hke⟩

variable (srv : Str → Page) (order : List Str → List Str)

theorem mirror_makes (root : Str) (site : Site) (hsv : Serves srv root site) (hord : ∀ l x, x ∈ order l ↔ x ∈ l) (k : Nat) (p : Path)
    (hu : GoodUrl (urlOf root p)) (hf : Fits site k p) : Makes (mirror srv order k) root site p := by
  induction k generalizing p with
  | zero => exact hf.elim
  | succ k ih =>
    intro st target hT hd hc
    have hp := hsv p
    unfold Fits at hf
    cases hs : site p with
    | none => rw [hs] at hf; exact hf.elim
    | some it =>
      have hT0 : plan site p (normal target) (normal target) = some it.node := by
        have := plan_append site p (normal target) []
        rw [List.append_nil] at this
        rw [this, find, hs]
        rfl
      cases it with
      | file b =>
        rw [hs] at hp
        obtain ⟨chunks, h1, h2, h3⟩ := hp
        unfold mirror
        dsimp only
        rw [h1]
        dsimp only
        have hnd : isDir st.fs (normal target) = false := by
          unfold isDir
          have : st.fs (normal target) ≠ some .dir := fun hx => by
            have := hc _ _ _ hT0 hx
            cases this
          simp [hT, this]
        have hw : write st.fs target (readAll chunks) = .ok (put st.fs (normal target) (.file b)) := by
          unfold write
          dsimp only
          rw [if_neg (by rw [hnd, hd]; simp), readAll_flatten _ h2, h3]
        rw [hw]
        refine ⟨_, rfl, ?_⟩
        funext x
        show put st.fs (normal target) (.file b) x = _
        unfold put planted
        by_cases hx : x = normal target
        · rw [hx, hT0, if_pos rfl]
          rfl
        · have : plan site p (normal target) x = none := by
            unfold plan
            by_cases hpre : normal target <+: x
            · obtain ⟨q, rfl⟩ := hpre
              rw [if_pos ⟨q, rfl⟩, List.drop_left]
              cases q with
              | nil => exact absurd (List.append_nil _) hx
              | cons n q => rw [find, hs]; rfl
            · rw [if_neg hpre]
          rw [this, if_neg hx]
      | dir names =>
        rw [hs] at hp hf
        obtain ⟨hne, hg, tags, contents, h1, h2, h3⟩ := hp
        dsimp only at hf
        obtain ⟨ls, hl, hsort, hall⟩ := links_sorted (urlOf root p) hu names hg tags h2 h3
        unfold mirror
        dsimp only
        rw [h1]
        dsimp only
        rw [hl]
        dsimp only
        obtain ⟨st', d', e1, e2, e3, e4⟩ := visit_makes (mirror srv order k) root site p names hs hg
          (fun n hn => ih (p ++ [n]) (by rw [urlOf_snoc]; exact good_snoc _ _ hu (hg n hn)) (hf n hn)) target hT st.fs hd hc (order ls)
          (fun l hx => hsort l ((hord _ _).mp hx)) [] (by simp) { st with opened := st.opened ++ [urlOf root p] } false (fun x => Or.inl rfl) (by simp) (by simp)
        have each : ∀ n ∈ names, d' = true ∧ ∀ q, plan site p (normal target) (normal target ++ n :: q) ≠ none →
            st'.fs (normal target ++ n :: q) = plan site p (normal target) (normal target ++ n :: q) := fun n hn => by
          obtain ⟨l, h5, h6⟩ := hall n hn
          exact e4 n hn (Or.inr ⟨l, (hord _ _).mpr h5, h6⟩)
        obtain ⟨n0, hn0⟩ := List.exists_mem_of_ne_nil names hne
        have hd' : d' = true := (each n0 hn0).1
        rw [e1, hd']
        refine ⟨st', rfl, ?_⟩
        funext x
        unfold planted
        cases hx : plan site p (normal target) x with
        | none =>
          rcases e2 x with h | ⟨nd, h, _⟩
          · exact h
          · rw [hx] at h; cases h
        | some nd =>
          have hpre : normal target <+: x := by
            by_contra hcx
            unfold plan at hx
            rw [if_neg hcx] at hx
            cases hx
          obtain ⟨q, rfl⟩ := hpre
          cases q with
          | nil =>
            rw [List.append_nil] at hx ⊢
            rw [hT0] at hx
            rw [e3 hd', ← hx]
            rfl
          | cons n q =>
            have hn : n ∈ names := by
              by_contra hcn
              rw [plan_append, find, hs] at hx
              dsimp only at hx
              rw [if_neg hcn] at hx
              cases hx
            rw [(each n hn).2 q (by rw [hx]; simp), hx]

/-- C124: the mirror of a served tree makes just this tree: each file with its bytes, each directory, and nothing else is changed; in whatever order the links
come, with or without a slash, once or twice, among any links that lead elsewhere. -/
theorem mirror_tree (root : Str) (site : Site) (hsv : Serves srv root site) (hord : ∀ l x, x ∈ order l ↔ x ∈ l) (hroot : GoodUrl root) (k : Nat)
    (hf : Fits site k []) (st : St) (target : Path) (hT : normal target ≠ []) (hd : isDir st.fs (normal target).dropLast = true)
    (hc : Compatible (plan site [] (normal target)) st.fs) :
    ∃ st', mirror srv order k st root target = (st', none) ∧
      (∀ q b, find site [] q = some (.file b) → st'.fs (normal target ++ q) = some (.file b)) ∧
      (∀ q names, find site [] q = some (.dir names) → st'.fs (normal target ++ q) = some .dir) ∧
      ∀ x, (∀ q it, find site [] q = some it → x ≠ normal target ++ q) → st'.fs x = st.fs x := by
  have hu0 : urlOf root [] = root := by unfold urlOf; simp
  obtain ⟨st', h1, h2⟩ := mirror_makes srv order root site hsv hord k [] (by rw [hu0]; exact hroot) hf st target hT hd hc
  rw [hu0] at h1
  refine ⟨st', h1, ?_, ?_, ?_⟩
  · intro q b hq
    rw [h2]
    unfold planted
    rw [plan_append, hq]
    rfl
  · intro q names hq
    rw [h2]
    unfold planted
    rw [plan_append, hq]
    rfl
  · intro x hx
    rw [h2]
    unfold planted
    have : plan site [] (normal target) x = none := by
      unfold plan
      by_cases hpre : normal target <+: x
      · obtain ⟨q, rfl⟩ := hpre
        rw [if_pos ⟨q, rfl⟩, List.drop_left]
        cases hq : find site [] q with
        | none => rfl
        | some it => exact absurd rfl (hx q it hq)
      · rw [if_neg hpre]
    rw [this]

end NBK.Wget
