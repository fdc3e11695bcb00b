import Verif.Wget.TreeProps
set_option linter.unusedSimpArgs false
/-!
# C124: cases, and what does not hold
-/
namespace NBK.Wget

/-- A link. -/
def a (s : String) : Tag := ⟨"a".toList, [("href".toList, some s.toList)]⟩

def lookup (l : List (String × Page)) (u : Str) : Page := match l with
  | [] => .fail (.http 404)
  | (k, p) :: l => if u = k.toList then p else lookup l u

def nothing : St := ⟨fun _ => none, []⟩

def pth (l : List String) : Path := l.map String.toList

/-! ## A small tree -/

def smallSrv : Str → Page := lookup
  [("http://h/d", .html [a "?C=N;O=D", a "/", a "x.dat", a "sub/", a "sub", a "x.dat"] [60]),
   ("http://h/d/x.dat", .data [[1, 2], [3]]),
   ("http://h/d/sub", .html [a "/d/", a "y"] [61]),
   ("http://h/d/sub/y", .data [[4]])]

def smallSite : Site := fun p =>
  if p = [] then some (.dir (pth ["x.dat", "sub"]))
  else if p = pth ["x.dat"] then some (.file [1, 2, 3])
  else if p = pth ["sub"] then some (.dir (pth ["y"]))
  else if p = pth ["sub", "y"] then some (.file [4])
  else none

theorem good_names : GoodName "x.dat".toList ∧ GoodName "sub".toList ∧ GoodName "y".toList := by
  unfold GoodName
  decide +kernel

theorem small_serves : Serves smallSrv "http://h/d".toList smallSite := by
  intro p
  unfold smallSite
  by_cases h0 : p = []
  · subst h0
    rw [if_pos rfl]
    refine ⟨by decide +kernel, ?_, [a "?C=N;O=D", a "/", a "x.dat", a "sub/", a "sub", a "x.dat"], [60], by decide +kernel, by decide +kernel, ?_⟩
    · intro n hn
      rcases List.mem_cons.mp hn with rfl | hn
      · exact good_names.1
      · rcases List.mem_cons.mp hn with rfl | hn
        · exact good_names.2.1
        · cases hn
    · intro h hh
      have hh : h ∈ ["?C=N;O=D".toList, "/".toList, "x.dat".toList, "sub/".toList, "sub".toList, "x.dat".toList] := by
        have e : hrefs [a "?C=N;O=D", a "/", a "x.dat", a "sub/", a "sub", a "x.dat"] =
          ["?C=N;O=D".toList, "/".toList, "x.dat".toList, "sub/".toList, "sub".toList, "x.dat".toList] := by decide +kernel
        rw [e] at hh
        exact hh
      simp only [List.mem_cons, List.not_mem_nil, or_false] at hh
      rcases hh with rfl | rfl | rfl | rfl | rfl | rfl
      · exact Or.inr ⟨"http://h/d/?C=N;O=D".toList, by decide +kernel, Or.inr (by decide +kernel)⟩
      · exact Or.inr ⟨"http://h/".toList, by decide +kernel, Or.inl (by decide +kernel)⟩
      · exact Or.inl ⟨"x.dat".toList, by decide +kernel, Or.inl rfl⟩
      · exact Or.inl ⟨"sub".toList, by decide +kernel, Or.inr (by decide +kernel)⟩
      · exact Or.inl ⟨"sub".toList, by decide +kernel, Or.inl rfl⟩
      · exact Or.inl ⟨"x.dat".toList, by decide +kernel, Or.inl rfl⟩
  · rw [if_neg h0]
    by_cases h1 : p = pth ["x.dat"]
    · subst h1
      rw [if_pos rfl]
      exact ⟨[[1, 2], [3]], by decide +kernel, by decide, by decide⟩
    · rw [if_neg h1]
      by_cases h2 : p = pth ["sub"]
      · subst h2
        rw [if_pos rfl]
        refine ⟨by decide +kernel, ?_, [a "/d/", a "y"], [61], by decide +kernel, by decide +kernel, ?_⟩
        · intro n hn
          rcases List.mem_cons.mp hn with rfl | hn
          · exact good_names.2.2
          · cases hn
        · intro h hh
          have hh : h ∈ ["/d/".toList, "y".toList] := by
            have e : hrefs [a "/d/", a "y"] = ["/d/".toList, "y".toList] := by decide +kernel
            rw [e] at hh
            exact hh
          simp only [List.mem_cons, List.not_mem_nil, or_false] at hh
          rcases hh with rfl | rfl
          · exact Or.inr ⟨"http://h/d/".toList, by decide +kernel, Or.inl (by decide +kernel)⟩
          · exact Or.inl ⟨"y".toList, by decide +kernel, Or.inl rfl⟩
      · rw [if_neg h2]
        by_cases h3 : p = pth ["sub", "y"]
        · subst h3
          rw [if_pos rfl]
          exact ⟨[[4]], by decide +kernel, by decide, by decide⟩
        · rw [if_neg h3]
          trivial

theorem small_fits : Fits smallSite 3 [] := by
  have s0 : smallSite [] = some (.dir (pth ["x.dat", "sub"])) := rfl
  have s1 : smallSite (pth ["x.dat"]) = some (.file [1, 2, 3]) := rfl
  have s2 : smallSite (pth ["sub"]) = some (.dir (pth ["y"])) := rfl
  have s3 : smallSite (pth ["sub", "y"]) = some (.file [4]) := rfl
  unfold Fits
  rw [s0]
  intro n hn
  rcases List.mem_cons.mp hn with rfl | hn
  · unfold Fits
    show match smallSite (pth ["x.dat"]) with
      | some (.file _) => True
      | some (.dir names) => ∀ n ∈ names, Fits smallSite 1 (pth ["x.dat"] ++ [n])
      | none => False
    rw [s1]
    trivial
  · rcases List.mem_cons.mp hn with rfl | hn
    · unfold Fits
      show match smallSite (pth ["sub"]) with
        | some (.file _) => True
        | some (.dir names) => ∀ n ∈ names, Fits smallSite 1 (pth ["sub"] ++ [n])
        | none => False
      rw [s2]
      intro m hm
      rcases List.mem_cons.mp hm with rfl | hm
      · unfold Fits
        show match smallSite (pth ["sub", "y"]) with
          | some (.file _) => True
          | some (.dir names) => ∀ n ∈ names, Fits smallSite 0 (pth ["sub", "y"] ++ [n])
          | none => False
        rw [s3]
        trivial
      · cases hm
    · cases hn

/-- The hypotheses of `mirror_tree` are met. -/
theorem small_case : ∃ st', mirror smallSrv List.reverse 3 nothing "http://h/d".toList (pth [".", "out"]) = (st', none) ∧
    st'.fs (pth ["out", "sub", "y"]) = some (.file [4]) ∧ st'.fs (pth ["out", "sub"]) = some .dir ∧ st'.fs (pth ["sub"]) = none := by
  have hn : normal (pth [".", "out"]) = pth ["out"] := by decide +kernel
  obtain ⟨st', h1, h2, h3, h4⟩ := mirror_tree smallSrv List.reverse "http://h/d".toList smallSite small_serves (fun l x => by simp)
    ⟨⟨"http://h".toList, "/d".toList, by decide +kernel⟩, by decide +kernel⟩ 3 small_fits nothing (pth [".", "out"]) (by decide +kernel)
    (by decide +kernel) (fun x nd old _ h => by cases h)
  rw [hn] at h2 h3 h4
  refine ⟨st', h1, h2 (pth ["sub", "y"]) [4] rfl, h3 (pth ["sub"]) (pth ["y"]) rfl, ?_⟩
  rw [h4 (pth ["sub"])]
  · rfl
  · intro q it _ hx
    have := congrArg List.head? hx
    rw [List.head?_append] at this
    revert this
    have e : (pth ["out"]).head? = some "out".toList := rfl
    rw [e]
    show some "sub".toList = some "out".toList → False
    decide +kernel

/-! ## What does not hold -/

/-- A page that links to itself ends with the recursion limit, whatever it is. -/
theorem self_link (contents : List Nat) (order : List Str → List Str) (hord : ∀ s, order [s] = [s]) (n : Nat) (st : St) (url : Str) (target : Path)
    (b p : Str) (hu : splitUrl url = some (b, p)) (hl : url.getLast? ≠ some '/') :
    (mirror (fun _ => .html [a "./"] contents) order n st url target).2 = some .recursionError := by
  induction n generalizing st url target p with
  | zero => rfl
  | succ n ih =>
    have hg : GoodUrl url := ⟨⟨b, p, hu⟩, hl⟩
    have hr : resolve ['.', '/'] (url ++ ['/']) = .ok (url ++ '/' :: ['.', '/']) := resolve_relative url _ (by decide +kernel) (by simp) (by decide)
    obtain ⟨b', q, hsp⟩ := good_split url hg
    have hh : hrefs [a "./"] = [['.', '/']] := by decide +kernel
    have hne : url ≠ [] := by
      rintro rfl
      cases hu
    have hlinks : links url [a "./"] = .ok [url ++ '/' :: ['.', '/']] := by
      unfold links
      rw [List.getLast?_eq_some_getLast hne]
      dsimp only
      have : url.getLast hne ≠ '/' := fun hx => hl (by rw [List.getLast?_eq_some_getLast hne, hx])
      rw [if_neg this, hh]
      unfold resolveAll
      rw [hr]
      unfold resolveAll
      show Except.ok (List.dedup [url ++ '/' :: ['.', '/']]) = _
      rw [List.dedup_eq_self.mpr (List.nodup_singleton _)]
    have hs : strip (url ++ '/' :: ['.', '/']) = url ++ '/' :: ['.'] := by
      have e : url ++ '/' :: ['.', '/'] = (url ++ '/' :: ['.']) ++ ['/'] := by simp
      rw [e, strip_slash]
    have hname : lastName (url ++ '/' :: ['.']) = ['.'] := by
      unfold lastName
      have e : (url ++ '/' :: ['.']).reverse = ['.'] ++ '/' :: url.reverse := by simp
      rw [e, (takeWhile_append_stop (fun c => c != '/') ['.'] '/' url.reverse (by decide) (by decide)).1]
      rfl
    obtain ⟨he, hb, hp⟩ := (splitUrl_spec _ _ _).mp hu
    have hu' : splitUrl (url ++ '/' :: ['.']) = some (b, p ++ '/' :: ['.']) := by
      refine (splitUrl_spec _ _ _).mpr ⟨by rw [he, List.append_assoc], hb, Or.inr ?_⟩
      rcases hp with rfl | ⟨q, rfl⟩
      · exact ⟨['.'], rfl⟩
      · exact ⟨q ++ '/' :: ['.'], rfl⟩
    have hl' : (url ++ '/' :: ['.']).getLast? ≠ some '/' := by
      rw [List.getLast?_append]
      show some '.' ≠ some '/'
      decide
    have key := fun st' => ih st' (url ++ '/' :: ['.']) (target ++ [['.']]) (p ++ '/' :: ['.']) hu' hl'
    unfold mirror
    dsimp only
    rw [hlinks]
    dsimp only
    rw [hord]
    unfold visit
    rw [resolve_again _ _ url _ _ hsp _ hr]
    dsimp only
    rw [hs, if_neg (by push Not; exact ⟨_, rfl⟩), hname, if_neg (by decide)]
    generalize ({ fs := if false = true then st.fs else mkdir st.fs target, opened := st.opened ++ [url] } : St) = st1
    have hk := key st1
    cases hm : mirror (fun _ => .html [a "./"] contents) order n st1 (url ++ '/' :: ['.']) (target ++ [['.']]) with
    | mk st2 er =>
      rw [hm] at hk
      cases er with
      | none => cases hk
      | some e => exact hk

/-- A link `../` to the parent, as some servers list it, writes the parent's files over: they get out of the target. -/
theorem parent_link_escapes : let r := (mirror (lookup [("http://h/d", .html [a "../"] []), ("http://h/d/..", .html [a "z"] []), ("http://h/d/../z", .data [[7]])])
      id 9 nothing "http://h/d".toList (pth ["out"]))
    r.2 = none ∧ r.1.fs (pth ["z"]) = some (.file [7]) ∧ ¬ normal (pth ["out"]) <+: pth ["z"] := by decide +kernel

/-- With a URL without a path another host whose name begins in the same way is opened. -/
theorem other_host : (mirror (lookup [("http://h", .html [a "http://h.evil/x"] []), ("http://h.evil/x", .data [[7]])]) id 9 nothing "http://h".toList
    (pth ["out"])).1.opened = ["http://h".toList, "http://h.evil/x".toList] ∧
    splitUrl "http://h.evil/x".toList = some ("http://h.evil".toList, "/x".toList) := by decide +kernel

/-- A link to a place beside the directory whose name begins in the same way is taken for a member. -/
theorem sibling_taken : let r := (mirror (lookup [("http://h/d", .html [a "/d2/x"] []), ("http://h/d2/x", .data [[7]])]) id 9 nothing "http://h/d".toList
      (pth ["d"]))
    r.2 = none ∧ r.1.fs (pth ["d", "x"]) = some (.file [7]) := by decide +kernel

/-- An HTML page with a relative link is not saved: what the link points to is looked for below the page, and the mirror ends. -/
theorem html_page_aborts : let r := (mirror (lookup [("http://h/d", .html [a "p.html", a "q.html"] []), ("http://h/d/p.html", .html [a "q.html"] [1]),
      ("http://h/d/q.html", .html [] [2])]) id 9 nothing "http://h/d".toList (pth ["d"]))
    r.2 = some (.http 404) ∧ r.1.fs (pth ["d", "p.html"]) = some .dir ∧ r.1.fs (pth ["d", "q.html"]) = none := by decide +kernel

/-- A page without links is saved. -/
theorem html_page_saved : let r := (mirror (lookup [("http://h/d", .html [a "q.html", a "r"] []), ("http://h/d/q.html", .html [] [2]),
      ("http://h/d/r", .html [] [3])]) id 9 nothing "http://h/d".toList (pth ["d"]))
    r.2 = none ∧ r.1.fs (pth ["d", "q.html"]) = some (.file [2]) ∧ r.1.fs (pth ["d", "r.html"]) = some (.file [3]) ∧ r.1.fs (pth ["d", "r"]) = none := by
  decide +kernel

/-- An empty directory becomes a file with the listing, under another name. -/
theorem empty_directory : let r := (mirror (lookup [("http://h/d", .html [a "e/"] []), ("http://h/d/e", .html [a "/d/", a "?C=N"] [5])]) id 9 nothing
      "http://h/d".toList (pth ["d"]))
    r.2 = none ∧ r.1.fs (pth ["d", "e"]) = none ∧ r.1.fs (pth ["d", "e.html"]) = some (.file [5]) := by decide +kernel

/-- Two pages may be saved to one file; which is kept depends on the order of a set. -/
theorem collision : let srv := lookup [("http://h/d", .html [a "e", a "e.html"] []), ("http://h/d/e", .html [] [5]), ("http://h/d/e.html", .html [] [6])]
    (mirror srv id 9 nothing "http://h/d".toList (pth ["d"])).1.fs (pth ["d", "e.html"]) = some (.file [6]) ∧
    (mirror srv List.reverse 9 nothing "http://h/d".toList (pth ["d"])).1.fs (pth ["d", "e.html"]) = some (.file [5]) := by decide +kernel

/-- A link with an address for mail or a part of the page ends the mirror. -/
theorem other_links_abort : (mirror (lookup [("http://h/d", .html [a "mailto:me"] [])]) id 9 nothing "http://h/d".toList (pth ["d"])).2 = some (.http 404) ∧
    (mirror (lookup [("http://h/d", .html [a "#top"] [])]) id 9 nothing "http://h/d".toList (pth ["d"])).2 = some (.http 404) := by decide +kernel

/-- If the target exists as a file the error of `mkdir` is passed over and the first member raises. -/
theorem target_is_file : let st : St := ⟨fun p => if p = pth ["d"] then some (.file [1]) else none, []⟩
    let r := (mirror (lookup [("http://h/d", .html [a "x"] []), ("http://h/d/x", .data [[7]])]) id 9 st "http://h/d".toList (pth ["d"]))
    r.2 = some .osError ∧ r.1.fs (pth ["d"]) = some (.file [1]) := by decide +kernel

end NBK.Wget
