import Verif.Wget.CaseProps
set_option linter.unusedSimpArgs false
/-!
# C124: the examples and their download
-/
namespace NBK.Wget

variable (srv : Str → Page) (order : List Str → List Str)

theorem splitSlash_ne (s : Str) : splitSlash s ≠ [] := by
  cases s with
  | nil => simp [splitSlash]
  | cons c s =>
    unfold splitSlash
    split
    · simp
    · split <;> simp

theorem splitSlash_append (s t : Str) : splitSlash (s ++ '/' :: t) = splitSlash s ++ splitSlash t := by
  induction s with
  | nil =>
    rfl
  | cons c s ih =>
    rw [List.cons_append, splitSlash, ih, splitSlash]
    by_cases hc : c = '/'
    · rw [if_pos hc, if_pos hc, List.cons_append]
    · rw [if_neg hc, if_neg hc]
      cases hs : splitSlash s with
      | nil => exact absurd hs (splitSlash_ne s)
      | cons p ps => rfl

theorem splitSlash_name (n : Str) (h : '/' ∉ n) : splitSlash n = [n] := by
  induction n with
  | nil => rfl
  | cons c n ih =>
    rw [splitSlash, if_neg (fun hx : c = '/' => h (hx ▸ List.mem_cons_self)), ih fun hx => h (List.mem_cons_of_mem _ hx)]

/-- Every part of a path, joined again. -/
theorem join_split (s : Str) : joinSlash (splitSlash s) = s := by
  induction s with
  | nil => rfl
  | cons c s ih =>
    rw [splitSlash]
    by_cases hc : c = '/'
    · rw [if_pos hc]
      cases hs : splitSlash s with
      | nil => exact absurd hs (splitSlash_ne s)
      | cons p ps =>
        rw [joinSlash, ← hs, ih, hc]
        · rfl
        · simp
    · rw [if_neg hc]
      cases hs : splitSlash s with
      | nil => exact absurd hs (splitSlash_ne s)
      | cons p ps =>
        dsimp only
        rw [hs] at ih
        cases ps with
        | nil =>
          rw [joinSlash] at ih ⊢
          rw [ih]
        | cons q qs =>
          rw [joinSlash] at ih ⊢
          · rw [← ih]
            rfl
          · simp
          · simp

/-- A name without a directory is saved under the name in the current directory. -/
theorem defaultTarget_name (n : Str) (hn : GoodName n) : defaultTarget (exampleUrl n) = [n] := by
  have hh : n.head? ≠ some '/' := fun hx => hn.2.1 (List.mem_of_mem_head? hx)
  unfold defaultTarget exampleUrl
  rw [if_neg hh, splitSlash_append, splitSlash_name n hn.2.1, normal_good _ n hn]
  simp

/-- C124: the list of the examples is sorted. -/
theorem strLe_total (s t : Str) : strLe s t = true ∨ strLe t s = true := by
  induction s generalizing t with
  | nil => exact Or.inl (by simp [strLe])
  | cons c s ih =>
    cases t with
    | nil => exact Or.inr (by simp [strLe])
    | cons d t =>
      unfold strLe
      by_cases h : c = d
      · rw [if_pos h, if_pos h.symm]
        exact ih t
      · rw [if_neg h, if_neg (Ne.symm h)]
        have : c.toNat ≠ d.toNat := fun hx => h (Char.toNat_inj.mp hx)
        simp only [decide_eq_true_eq]
        omega

theorem strLe_trans (s t u : Str) (h1 : strLe s t = true) (h2 : strLe t u = true) : strLe s u = true := by
  induction s generalizing t u with
  | nil => simp [strLe]
  | cons c s ih =>
    cases t with
    | nil => simp [strLe] at h1
    | cons d t =>
      cases u with
      | nil => simp [strLe] at h2
      | cons e u =>
        unfold strLe at h1 h2 ⊢
        by_cases hcd : c = d
        · rw [if_pos hcd] at h1
          subst hcd
          by_cases hce : c = e
          · rw [if_pos hce] at h2 ⊢
            exact ih t u h1 h2
          · rw [if_neg hce] at h2 ⊢
            exact h2
        · rw [if_neg hcd] at h1
          by_cases hde : d = e
          · subst hde
            rw [if_neg hcd]
            exact h1
          · rw [if_neg hde] at h2
            simp only [decide_eq_true_eq] at h1 h2
            have : c ≠ e := fun hx => by subst hx; omega
            rw [if_neg this]
            simp only [decide_eq_true_eq]
            omega

theorem examples_sorted (ls : List Str) : (examplesOf ls).Pairwise fun s t => strLe s t = true := by
  unfold examplesOf
  dsimp only
  have : Std.Total (fun s t : Str => strLe s t = true) := ⟨strLe_total⟩
  have : IsTrans Str (fun s t : Str => strLe s t = true) := ⟨strLe_trans⟩
  exact List.pairwise_insertionSort _ _

/-- C124: the examples are the paths of the links below the URL of the data, relative to it, that do not begin with a dot or a question mark. -/
theorem examples_mem (ls : List Str) (s : Str) : s ∈ examplesOf ls ↔
    s ≠ [] ∧ s.head? ≠ some '.' ∧ s.head? ≠ some '?' ∧ ∃ l ∈ ls, ∃ p, normal (splitSlash l) = normal (splitSlash dataUrl) ++ p ∧ joinSlash p = s := by
  have hb : ∀ l p, below l = some p ↔ normal (splitSlash l) = normal (splitSlash dataUrl) ++ p := by
    intro l p
    unfold below
    dsimp only
    by_cases h : normal (splitSlash dataUrl) <+: normal (splitSlash l)
    · rw [if_pos h]
      obtain ⟨t, ht⟩ := h
      rw [← ht, List.drop_left]
      constructor
      · intro hx
        injection hx with hx
        rw [hx]
      · intro hx
        rw [List.append_cancel_left hx]
    · rw [if_neg h]
      constructor
      · intro hx; cases hx
      · intro hx
        exact absurd ⟨p, hx.symm⟩ h
  have hpre : ∀ c : Char, ([c] <+: s) ↔ s.head? = some c := by
    intro c
    cases s with
    | nil => simp
    | cons d s => simp [List.cons_prefix_cons, eq_comm]
  unfold examplesOf
  dsimp only
  rw [List.mem_insertionSort, List.mem_filter, List.mem_filter, List.mem_filterMap]
  simp only [decide_eq_true_eq, not_or, Option.map_eq_some_iff, ne_eq, decide_not, Bool.not_eq_true', decide_eq_false_iff_not, Bool.decide_or,
    Bool.or_eq_false_iff, hpre, Bool.not_or, Bool.and_eq_true]
  constructor
  · rintro ⟨⟨⟨l, hl, p, hp, rfl⟩, hs⟩, h1, h2⟩
    exact ⟨hs, h1, h2, l, hl, p, (hb l p).mp hp, rfl⟩
  · rintro ⟨hs, h1, h2, l, hl, p, hp, rfl⟩
    exact ⟨⟨⟨l, hl, p, (hb l p).mpr hp, rfl⟩, hs⟩, h1, h2⟩

/-- C124: the name of a member of the data directory is listed, and the URL that is downloaded for it is that of the link. -/
theorem member_listed (ls : List Str) (n : Str) (hn : GoodName n) (hd : n.head? ≠ some '.') (hl : dataUrl ++ '/' :: n ∈ ls ∨ dataUrl ++ '/' :: (n ++ ['/']) ∈ ls) :
    n ∈ examplesOf ls ∧ exampleUrl n = dataUrl ++ '/' :: n := by
  have hh : n.head? ≠ some '/' := fun hx => hn.2.1 (List.mem_of_mem_head? hx)
  have hq : n.head? ≠ some '?' := fun hx => hn.2.2.1 (List.mem_of_mem_head? hx)
  refine ⟨?_, by unfold exampleUrl; rw [if_neg hh]⟩
  rw [examples_mem]
  refine ⟨hn.1, hd, hq, ?_⟩
  rcases hl with hl | hl
  · refine ⟨_, hl, [n], ?_, rfl⟩
    rw [splitSlash_append, splitSlash_name n hn.2.1, normal_good _ n hn]
  · refine ⟨_, hl, [n], ?_, rfl⟩
    rw [splitSlash_append, splitSlash_append, splitSlash_name n hn.2.1, ← List.append_assoc]
    show normal (_ ++ [n] ++ [[]]) = _
    rw [normal_snoc, if_pos (Or.inl rfl), normal_good _ n hn]

/-- C124: a directory that does not exist is an error before anything is opened. -/
theorem no_directory (limit : Nat) (d : Path) (fs : List Str) (st : St) (h : isDir st.fs (normal d) = false) :
    downloadExampleData srv order limit (some d) fs st = (st, some .valueError) := by
  unfold downloadExampleData
  simp [h]

/-- Where a file is saved. -/
def saveAt (dirname : Option Path) (f : Str) : Path := normal (dirname.getD []) ++ [f]

/-- C124: all the files asked for are saved under their names in the directory, or the current one, and nothing else is changed. -/
theorem download_files (limit : Nat) (dirname : Option Path) (names : List Str) (st : St) (body : Str → List Nat) (hg : ∀ f ∈ names, GoodName f)
    (hs : ∀ f ∈ names, ∃ chunks, srv (dataUrl ++ '/' :: f) = .data chunks ∧ (∀ c ∈ chunks, c ≠ []) ∧ chunks.flatten = body f)
    (hd : ∀ d, dirname = some d → isDir st.fs (normal d) = true) (hn : ∀ f ∈ names, st.fs (saveAt dirname f) ≠ some .dir) :
    ∃ st', downloadExampleData srv order (limit + 1) dirname names st = (st', none) ∧ st'.opened = st.opened ++ names.map (fun f => dataUrl ++ '/' :: f) ∧
      ∀ x, st'.fs x = if ∃ f ∈ names, x = saveAt dirname f then some (.file (body (x.getLastD []))) else st.fs x := by
  have hD : isDir st.fs (normal (dirname.getD [])) = true := by
    cases dirname with
    | none => rfl
    | some d => exact hd d rfl
  have start : downloadExampleData srv order (limit + 1) dirname names st = download srv order (limit + 1) dirname names st := by
    unfold downloadExampleData
    cases dirname with
    | none => rfl
    | some d =>
      dsimp only
      rw [if_pos (hd d rfl)]
  rw [start]
  clear start hd
  induction names generalizing st with
  | nil => exact ⟨st, rfl, by simp, fun x => by simp⟩
  | cons f names ih =>
    have gf := hg f List.mem_cons_self
    have hh : f.head? ≠ some '/' := fun hx => gf.2.1 (List.mem_of_mem_head? hx)
    obtain ⟨chunks, h1, h2, h3⟩ := hs f List.mem_cons_self
    have hurl : exampleUrl f = dataUrl ++ '/' :: f := by unfold exampleUrl; rw [if_neg hh]
    have htar : normal (targetOf dirname f) = saveAt dirname f := by
      unfold targetOf
      cases dirname with
      | none =>
        dsimp only
        rw [defaultTarget_name f gf]
        exact normal_good [] f gf
      | some d =>
        dsimp only
        rw [splitSlash_name f gf.2.1]
        exact normal_good d f gf
    have hw : write st.fs (targetOf dirname f) (readAll chunks) = .ok (put st.fs (saveAt dirname f) (.file (body f))) := by
      unfold write
      dsimp only
      rw [htar, if_neg, readAll_flatten _ h2, h3]
      have e1 : isDir st.fs (saveAt dirname f) = false := by
        unfold isDir
        have := hn f List.mem_cons_self
        have h0 : saveAt dirname f ≠ [] := by unfold saveAt; simp
        simp [this, h0]
      have e2 : (saveAt dirname f).dropLast = normal (dirname.getD []) := by
        unfold saveAt
        rw [List.dropLast_concat]
      rw [e1, e2, hD]
      simp
    have hm : mirror srv order (limit + 1) st (exampleUrl f) (targetOf dirname f) = (⟨put st.fs (saveAt dirname f) (.file (body f)), st.opened ++ [dataUrl ++ '/' :: f]⟩, none) := by
      unfold mirror
      dsimp only
      have h1' : srv (exampleUrl f) = .data chunks := by rw [hurl, h1]
      rw [h1']
      dsimp only
      rw [hw]
      dsimp only
      rw [hurl]
    have hput : ∀ x, x ≠ saveAt dirname f → put st.fs (saveAt dirname f) (.file (body f)) x = st.fs x := fun x hx => by
      unfold put
      rw [if_neg hx]
    obtain ⟨st', e1, e2, e3⟩ := ih ⟨put st.fs (saveAt dirname f) (.file (body f)), st.opened ++ [dataUrl ++ '/' :: f]⟩
      (fun g hx => hg g (List.mem_cons_of_mem _ hx)) (fun g hx => hs g (List.mem_cons_of_mem _ hx)) (by
        intro g hx
        by_cases he : saveAt dirname g = saveAt dirname f
        · dsimp only
          rw [he]
          unfold put
          rw [if_pos rfl]
          simp
        · dsimp only
          rw [hput _ he]
          exact hn g (List.mem_cons_of_mem _ hx)) (by
        have hx : put st.fs (saveAt dirname f) (.file (body f)) (normal (dirname.getD [])) = st.fs (normal (dirname.getD [])) := by
          refine hput _ ?_
          unfold saveAt
          intro hx
          have := congrArg List.length hx
          simp at this
        unfold isDir at hD ⊢
        simp only [hx]
        exact hD)
    refine ⟨st', ?_, ?_, ?_⟩
    · unfold download
      rw [hm]
      exact e1
    · rw [e2]
      simp
    · intro x
      rw [e3 x]
      by_cases hx : ∃ g ∈ names, x = saveAt dirname g
      · obtain ⟨g, hg1, hg2⟩ := hx
        rw [if_pos ⟨g, hg1, hg2⟩, if_pos ⟨g, List.mem_cons_of_mem _ hg1, hg2⟩]
      · rw [if_neg hx]
        by_cases hy : x = saveAt dirname f
        · rw [if_pos ⟨f, List.mem_cons_self, hy⟩, hy]
          dsimp only
          unfold put
          rw [if_pos rfl]
          unfold saveAt
          simp
        · rw [if_neg]
          · exact hput x hy
          · rintro ⟨g, hg1, hg2⟩
            rcases List.mem_cons.mp hg1 with rfl | hg1
            · exact hy hg2
            · exact hx ⟨g, hg1, hg2⟩

/-- C124: the first file that fails ends the download; it is a `ValueError` if the server knows no such file (and the list of files is to be had), else the
error itself. Files after it are not opened. -/
theorem download_first_error (limit : Nat) (dirname : Option Path) (f : Str) (names : List Str) (st st' : St) (e : Err)
    (h : mirror srv order limit st (exampleUrl f) (targetOf dirname f) = (st', some e)) :
    (download srv order limit dirname (f :: names) st).1 = st' ∧
    (e ≠ .http 404 → (download srv order limit dirname (f :: names) st).2 = some e) ∧
    (e = .http 404 → ∀ ex, availableExamples srv = .ok ex → (download srv order limit dirname (f :: names) st).2 = some .valueError) := by
  unfold download
  rw [h]
  refine ⟨?_, ?_, ?_⟩
  · split
    · rename_i heq; cases heq
    · rename_i heq
      injection heq with h1 h2
      split <;> exact h1.symm
    · rename_i heq
      injection heq with h1 h2
      exact h1.symm
  · intro he
    split
    · rename_i heq; cases heq
    · rename_i heq
      injection heq with h1 h2
      injection h2 with h2
      exact absurd h2 he
    · rename_i heq
      injection heq with h1 h2
      exact h2.symm
  · intro he ex hex
    subst he
    rw [hex]
    rfl

/-- C124: when the list of the examples cannot be fetched either, the error is that of the list. -/
theorem listing_error (limit : Nat) (dirname : Option Path) (f : Str) (names : List Str) (st st' : St) (e : Err)
    (h : mirror srv order limit st (exampleUrl f) (targetOf dirname f) = (st', some (.http 404))) (hs : srv dataUrl = .fail e) :
    availableExamples srv = .error e ∧ download srv order limit dirname (f :: names) st = (st', some e) := by
  have ha : availableExamples srv = .error e := by unfold availableExamples; rw [hs]
  refine ⟨ha, ?_⟩
  unfold download
  rw [h]
  simp only [ha]

/-- C124: the names that keep their ending: `.htm` and `.html`, in any mixture of cases. -/
theorem html_ending (s : Str) : isHtml s = true ↔ ∃ t u : Str, s = t ++ u ∧ (u.map Char.toLower = ['.', 'h', 't', 'm'] ∨ u.map Char.toLower = ['.', 'h', 't', 'm', 'l']) := by
  have key : ∀ l : Str, l <:+ s.map Char.toLower ↔ ∃ t u : Str, s = t ++ u ∧ u.map Char.toLower = l := by
    intro l
    constructor
    · rintro ⟨x, hx⟩
      obtain ⟨t, u, h1, h2, h3⟩ := List.map_eq_append_iff.mp hx.symm
      exact ⟨t, u, h1, h3⟩
    · rintro ⟨t, u, rfl, rfl⟩
      rw [List.map_append]
      exact List.suffix_append _ _
  unfold isHtml
  dsimp only
  rw [Bool.or_eq_true, decide_eq_true_iff, decide_eq_true_iff, key, key]
  constructor
  · rintro (⟨t, u, h1, h2⟩ | ⟨t, u, h1, h2⟩)
    · exact ⟨t, u, h1, Or.inl h2⟩
    · exact ⟨t, u, h1, Or.inr h2⟩
  · rintro ⟨t, u, h1, h2 | h2⟩
    · exact Or.inl ⟨t, u, h1, h2⟩
    · exact Or.inr ⟨t, u, h1, h2⟩

/-! ## Cases -/

def dataPage (tags : List Tag) (more : List (String × Page)) : Str → Page :=
  lookup (("http://portal.nersc.gov/project/m3035/nbodykit/example-data", .html tags []) ::
    more.map fun x => ("http://portal.nersc.gov/project/m3035/nbodykit/example-data" ++ x.1, x.2))

/-- The hypotheses of `download_files` are met. -/
theorem download_case : ∃ st', downloadExampleData (dataPage [] [("/x.dat", .data [[1, 2], [3]])]) id 1000 (some (pth ["out"])) (pth ["x.dat"])
      ⟨fun p => if p = pth ["out"] then some .dir else none, []⟩ = (st', none) ∧ st'.fs (pth ["out", "x.dat"]) = some (.file [1, 2, 3]) ∧
      st'.fs (pth ["x.dat"]) = none := by
  obtain ⟨st', h1, _, h3⟩ := download_files (dataPage [] [("/x.dat", .data [[1, 2], [3]])]) id 999 (some (pth ["out"])) (pth ["x.dat"])
    ⟨fun p => if p = pth ["out"] then some .dir else none, []⟩ (fun _ => [1, 2, 3])
    (fun f hf => by rw [List.mem_singleton.mp hf]; exact good_names.1)
    (fun f hf => ⟨[[1, 2], [3]], by rw [List.mem_singleton.mp hf]; decide +kernel, by decide, by decide⟩)
    (fun d hd => by injection hd with hd; rw [← hd]; decide +kernel) (fun f hf => by rw [List.mem_singleton.mp hf]; decide +kernel)
  refine ⟨st', h1, ?_, ?_⟩
  · rw [h3, if_pos ⟨"x.dat".toList, by decide +kernel, by decide +kernel⟩]
  · rw [h3, if_neg]
    · decide +kernel
    · rintro ⟨f, hf, hx⟩
      rw [List.mem_singleton.mp hf] at hx
      revert hx
      decide +kernel

/-- A name that the server does not know. -/
theorem unknown_example : (download (dataPage [a "x.dat"] [("/x.dat", .data [[1]])]) id 9 none (pth ["zz", "x.dat"]) nothing).2 = some .valueError ∧
    (download (dataPage [] [("/x.dat", .fail (.http 500))]) id 9 none (pth ["x.dat"]) nothing).2 = some (.http 500) := by decide +kernel

/-- The list of a page. -/
theorem examples_case : examplesOf ["http://portal.nersc.gov/project/m3035/nbodykit/example-data/b.dat".toList,
    "http://portal.nersc.gov/project/m3035/nbodykit/example-data/?C=N".toList, "http://portal.nersc.gov/project/m3035/".toList,
    "http://portal.nersc.gov/project/m3035/nbodykit/example-data/a/".toList] = pth ["a", "b.dat"] := by decide +kernel

/-- A member with two links is listed twice. -/
theorem examples_twice : examplesOf ["http://portal.nersc.gov/project/m3035/nbodykit/example-data/b".toList,
    "http://portal.nersc.gov/project/m3035/nbodykit/example-data/b/".toList] = pth ["b", "b"] := by decide +kernel

/-- A file below a directory is listed if linked, but its download does not make the directory. -/
theorem nested_file : (download (dataPage [a "s/f"] [("/s/f", .data [[1]])]) id 9 (some (pth ["out"])) (pth ["s/f"])
      ⟨fun p => if p = pth ["out"] then some .dir else none, []⟩).2 = some .osError ∧
    examplesOf ["http://portal.nersc.gov/project/m3035/nbodykit/example-data/s/f".toList] = pth ["s/f"] := by decide +kernel

/-- A missing member of an example that exists is reported as a missing example; what came before is left. -/
theorem nested_404 : let r := download (dataPage [a "s/"] [("/s", .html [a "x", a "y"] []), ("/s/x", .data [[1]])]) id 9 none (pth ["s"]) nothing
    r.2 = some .valueError ∧ r.1.fs (pth ["s", "x"]) = some (.file [1]) := by decide +kernel

/-- A filename with `..` leaves the directory. -/
theorem dotdot_name : let r := (download (dataPage [] [("/../f", .data [[1]])]) id 9 (some (pth ["out"])) (pth ["../f"])
      ⟨fun p => if p = pth ["out"] then some .dir else none, []⟩)
    r.2 = none ∧ r.1.fs (pth ["f"]) = some (.file [1]) := by
  decide +kernel

end NBK.Wget
